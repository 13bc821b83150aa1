import Verif.ImuIntegration
import Verif.Props.CostFunctions

/-!
# Integration of inertial measurements: which measurement is used when, and for which motions the result is exact
-/

namespace Verif.Imu

open Verif.Rigid Verif.Cost

/-! ### Specification -/

/-- Measurements in the order of their times. -/
def Sorted (data : List Data) : Prop := data.Pairwise (fun a b => a.time < b.time)

/-- The iterator is at the last measurement that is not after `t`. -/
def Ready (data : List Data) (t : Int) (it : Nat) : Prop :=
  ∃ d, data[it]? = some d ∧ d.time ≤ t ∧ ∀ n, data[it + 1]? = some n → t < n.time

/-- A measurement and the time for which it is used. -/
structure Segment where
  d : Data
  start : Int
  stop : Int

/-- Segments that follow each other from `a` to `b`, none of them empty. -/
def Chain : Int → Int → List Segment → Prop
  | a, b, [] => a = b
  | a, b, s :: ss => s.start = a ∧ a < s.stop ∧ Chain s.stop b ss

/-- The measurement of the segment is the latest one at all of its times. -/
def Latest (data : List Data) (s : Segment) : Prop :=
  s.d ∈ data ∧ s.d.time ≤ s.start ∧ ∀ e ∈ data, s.d.time < e.time → s.stop ≤ e.time

/-- Its length in seconds. -/
noncomputable def Segment.seconds (ticks : ℝ) (s : Segment) : ℝ := (s.stop - s.start : Int) / ticks

/-- The integration over segments, from what was integrated before. -/
noncomputable def resultOf (ca cg : V3 → V3) (ticks : ℝ) (r : Result) (ss : List Segment) : Result :=
  ss.foldl (fun r s => r.step ca cg s.d (s.seconds ticks)) r

/-! ### Which measurements are used -/

theorem get_lt {data : List Data} (h : Sorted data) {i j : Nat} {a b : Data} (ha : data[i]? = some a) (hb : data[j]? = some b) (hij : i < j) :
    a.time < b.time := by
  obtain ⟨hi, ha⟩ := List.getElem?_eq_some_iff.1 ha
  obtain ⟨hj, hb⟩ := List.getElem?_eq_some_iff.1 hb
  have := List.pairwise_iff_getElem.1 h i j hi hj hij
  rw [ha, hb] at this
  exact this

theorem index_after {data : List Data} (h : Sorted data) {i : Nat} {a e : Data} (ha : data[i]? = some a) (he : e ∈ data) (hlt : a.time < e.time) :
    ∃ j, i + 1 ≤ j ∧ data[j]? = some e := by
  obtain ⟨j, hj, rfl⟩ := List.getElem_of_mem he
  have hj' : data[j]? = some data[j] := List.getElem?_eq_getElem hj
  refine ⟨j, ?_, hj'⟩
  by_contra hc
  rcases Nat.lt_or_ge j i with h' | h'
  · have := get_lt h hj' ha h'; omega
  · have : j = i := by omega
    subst this
    rw [ha] at hj'
    injection hj' with e
    rw [← e] at hlt
    omega

theorem latest_none {data : List Data} (h : Sorted data) {i : Nat} {d : Data} {a b : Int} (hd : data[i]? = some d) (hn : data[i + 1]? = none)
    (ha : d.time ≤ a) : Latest data ⟨d, a, b⟩ := by
  refine ⟨List.mem_of_getElem? hd, ha, fun e he hlt => ?_⟩
  obtain ⟨j, hj, hj'⟩ := index_after h hd he hlt
  obtain ⟨hlen, _⟩ := List.getElem?_eq_some_iff.1 hj'
  have := List.getElem?_eq_none_iff.1 hn
  omega

theorem latest_some {data : List Data} (h : Sorted data) {i : Nat} {d n : Data} {a b : Int} (hd : data[i]? = some d)
    (hn : data[i + 1]? = some n) (ha : d.time ≤ a) (hb : b ≤ n.time) : Latest data ⟨d, a, b⟩ := by
  refine ⟨List.mem_of_getElem? hd, ha, fun e he hlt => ?_⟩
  obtain ⟨j, hj, hj'⟩ := index_after h hd he hlt
  show b ≤ e.time
  rcases Nat.lt_or_ge (i + 1) j with h' | h'
  · have := get_lt h hn hj' h'; omega
  · have : j = i + 1 := by omega
    subst this
    rw [hn] at hj'
    injection hj' with e'
    rw [← e']
    exact hb

theorem loop_done (ca cg : V3 → V3) (ticks : ℝ) (data : List Data) (stop : Int) (fuel : Nat) (hf : 1 ≤ fuel) (it : Nat) (r : Result) :
    loop ca cg ticks data stop fuel stop it r = some (r, it) := by
  obtain ⟨f, rfl⟩ : ∃ f, fuel = f + 1 := ⟨fuel - 1, by omega⟩
  simp [loop]

theorem loop_spec (ca cg : V3 → V3) (ticks : ℝ) {data : List Data} (h : Sorted data) (stop : Int) : ∀ (fuel : Nat) (cur : Int) (it : Nat),
    Ready data cur it → cur ≤ stop → data.length - it + 1 ≤ fuel →
    ∃ ss it', (∀ r, loop ca cg ticks data stop fuel cur it r = some (resultOf ca cg ticks r ss, it')) ∧ Chain cur stop ss ∧
      (∀ s ∈ ss, Latest data s) ∧ Ready data stop it' := by
  intro fuel
  induction fuel with
  | zero => intro cur it _ _ hf; omega
  | succ fuel ih =>
    rintro cur it ⟨d, hd, hle, hnext⟩ hcur hf
    have hlen := (List.getElem?_eq_some_iff.1 hd).1
    by_cases hlt : cur < stop
    · rcases hn : data[it + 1]? with _ | n
      · refine ⟨[⟨d, cur, stop⟩], it, fun r => ?_, ⟨rfl, hlt, rfl⟩, ?_, d, hd, by omega, fun n' hn' => ?_⟩
        · simp only [loop, if_pos hlt, hd, hn, Option.bind_eq_bind, Option.bind_some]
          rw [loop_done _ _ _ _ _ _ (by omega)]
          rfl
        · intro s hs
          rw [List.mem_singleton] at hs
          subst hs
          exact latest_none h hd hn hle
        · rw [hn] at hn'; exact absurd hn' (by simp)
      · have hn1 := hnext n hn
        by_cases hs : n.time ≤ stop
        · have hr : Ready data n.time (it + 1) := ⟨n, hn, le_refl _, fun m hm => get_lt h hn hm (by omega)⟩
          obtain ⟨ss, it', e, hc, hl, hr'⟩ := ih n.time (it + 1) hr hs (by omega)
          refine ⟨⟨d, cur, n.time⟩ :: ss, it', fun r => ?_, ⟨rfl, hn1, hc⟩, ?_, hr'⟩
          · simp only [loop, if_pos hlt, hd, hn, Option.bind_eq_bind, Option.bind_some, min_eq_left hs, if_true]
            rw [e]
            rfl
          · intro s hs'
            rcases List.mem_cons.1 hs' with rfl | hs'
            · exact latest_some h hd hn hle (le_refl _)
            · exact hl s hs'
        · have hs' : stop < n.time := not_le.1 hs
          refine ⟨[⟨d, cur, stop⟩], it, fun r => ?_, ⟨rfl, hlt, rfl⟩, ?_, d, hd, by omega, fun n' hn' => ?_⟩
          · simp only [loop, if_pos hlt, hd, hn, Option.bind_eq_bind, Option.bind_some, min_eq_right hs'.le]
            rw [if_neg (by omega), loop_done _ _ _ _ _ _ (by omega)]
            rfl
          · intro s hs
            rw [List.mem_singleton] at hs
            subst hs
            exact latest_some h hd hn hle hs'.le
          · rw [hn] at hn'
            injection hn' with e
            rw [← e]
            exact hs'
    · have : cur = stop := by omega
      subst this
      refine ⟨[], it, fun r => ?_, rfl, by simp, d, hd, hle, hnext⟩
      rw [loop_done _ _ _ _ _ _ (by omega)]
      rfl

/-- **C73**: for measurements in order, integration aborts exactly if the times are not in order or the iterator is not at the last
measurement before the start.  Otherwise it uses at every time the latest measurement, and leaves the iterator where an integration
from the end can start. -/
theorem integrate_spec (ca cg : V3 → V3) (ticks : ℝ) {data : List Data} (h : Sorted data) (start stop : Int) (it : Nat) :
    (¬ (start ≤ stop ∧ Ready data start it) → integrate ca cg ticks data start stop it = none) ∧
    (start ≤ stop → Ready data start it → ∃ ss it', integrate ca cg ticks data start stop it = some (resultOf ca cg ticks .zero ss, it') ∧
      Chain start stop ss ∧ (∀ s ∈ ss, Latest data s) ∧ Ready data stop it') := by
  constructor
  · intro hn
    unfold integrate
    by_cases h1 : stop < start
    · rw [if_pos h1]
    · rw [if_neg h1]
      rcases hd : data[it]? with _ | d
      · rfl
      · simp only [Option.bind_eq_bind, Option.bind_some]
        by_cases h2 : start < d.time
        · rw [if_pos h2]
        · rw [if_neg h2]
          rcases hm : data[it + 1]? with _ | m
          · exact absurd ⟨by omega, d, hd, by omega, fun n hn => by rw [hm] at hn; exact absurd hn (by simp)⟩ hn
          · simp only
            by_cases h3 : m.time ≤ start
            · rw [if_pos h3]
            · exact absurd ⟨by omega, d, hd, by omega, fun n hn => by rw [hm] at hn; injection hn with e; rw [← e]; omega⟩ hn
  · intro h1 hr
    obtain ⟨ss, it', e, hc, hl, hr'⟩ := loop_spec ca cg ticks h stop (data.length + 2) start it hr h1 (by omega)
    obtain ⟨d, hd, hle, hnext⟩ := hr
    refine ⟨ss, it', ?_, hc, hl, hr'⟩
    unfold integrate
    rw [if_neg (by omega), hd]
    simp only [Option.bind_eq_bind, Option.bind_some]
    rw [if_neg (by omega)]
    rcases hm : data[it + 1]? with _ | m
    · exact e _
    · simp only
      rw [if_neg (by have := hnext m hm; omega)]
      exact e _

theorem loop_more (ca cg : V3 → V3) (ticks : ℝ) (data : List Data) (stop : Int) : ∀ (fuel k : Nat) (cur : Int) (it : Nat) (r : Result) (res : Result × Nat),
    loop ca cg ticks data stop fuel cur it r = some res → loop ca cg ticks data stop (fuel + k) cur it r = some res := by
  intro fuel
  induction fuel with
  | zero => intro k cur it r res h; simp [loop] at h
  | succ fuel ih =>
    intro k cur it r res h
    have e : fuel + 1 + k = fuel + k + 1 := by omega
    rw [e]
    simp only [loop] at h ⊢
    split
    · rename_i hlt
      rw [if_pos hlt] at h
      simp only [Option.bind_eq_bind, Option.bind_eq_some_iff] at h ⊢
      obtain ⟨d, hd, h⟩ := h
      refine ⟨d, hd, ?_⟩
      split at h
      · exact ih _ _ _ _ _ h
      · exact ih _ _ _ _ _ h
    · rename_i hlt
      rw [if_neg hlt] at h
      exact h

theorem loop_split (ca cg : V3 → V3) (ticks : ℝ) {data : List Data} (h : Sorted data) {mid stop : Int} (hms : mid ≤ stop)
    (hmid : ∃ e ∈ data, e.time = mid) : ∀ (fuel fuel2 : Nat) (cur : Int) (it : Nat) (r r1 : Result) (i1 : Nat) (res : Result × Nat),
    Ready data cur it → cur ≤ mid → loop ca cg ticks data mid fuel cur it r = some (r1, i1) →
    loop ca cg ticks data stop fuel2 mid i1 r1 = some res → loop ca cg ticks data stop (fuel + fuel2) cur it r = some res := by
  intro fuel
  induction fuel with
  | zero => intro fuel2 cur it r r1 i1 res _ _ h1 _; simp [loop] at h1
  | succ fuel ih =>
    rintro fuel2 cur it r r1 i1 res ⟨d, hd, hle, hnext⟩ hcm h1 h2
    by_cases hlt : cur < mid
    · obtain ⟨e, he, het⟩ := hmid
      obtain ⟨j, hj, hj'⟩ := index_after h hd he (by omega)
      obtain ⟨n, hn⟩ : ∃ n, data[it + 1]? = some n := by
        obtain ⟨hl, _⟩ := List.getElem?_eq_some_iff.1 hj'
        exact ⟨_, List.getElem?_eq_getElem (by omega)⟩
      have hnm : n.time ≤ mid := by
        rcases Nat.lt_or_ge (it + 1) j with h' | h'
        · have := get_lt h hn hj' h'; omega
        · have : j = it + 1 := by omega
          subst this
          rw [hn] at hj'
          injection hj' with e'
          rw [e', het]
      have eq : fuel + 1 + fuel2 = fuel + fuel2 + 1 := by omega
      rw [eq]
      simp only [loop, if_pos hlt, hd, hn, Option.bind_eq_bind, Option.bind_some, min_eq_left hnm, if_true] at h1
      simp only [loop, if_pos (lt_of_lt_of_le hlt hms), hd, hn, Option.bind_eq_bind, Option.bind_some, min_eq_left (le_trans hnm hms), if_true]
      exact ih fuel2 n.time (it + 1) _ r1 i1 res ⟨n, hn, le_refl _, fun m hm => get_lt h hn hm (by omega)⟩ hnm h1 h2
    · have e : cur = mid := by omega
      subst e
      rw [loop_done _ _ _ _ _ _ (by omega)] at h1
      injection h1 with h1
      injection h1 with e1 e2
      subst e1
      subst e2
      have := loop_more ca cg ticks data stop fuel2 (fuel + 1) _ _ _ _ h2
      rwa [Nat.add_comm] at this

/-- **C73**: integrating to the time of a measurement and from there on is the same as integrating at once. -/
theorem integrate_compose (ca cg : V3 → V3) (ticks : ℝ) {data : List Data} (h : Sorted data) {start mid stop : Int} (h1 : start ≤ mid)
    (h2 : mid ≤ stop) (hmid : ∃ e ∈ data, e.time = mid) {it : Nat} (hr : Ready data start it) :
    ∃ s1 s2 i1 i2, Chain start mid s1 ∧ Chain mid stop s2 ∧ integrate ca cg ticks data start mid it = some (resultOf ca cg ticks .zero s1, i1) ∧
      integrate ca cg ticks data mid stop i1 = some (resultOf ca cg ticks .zero s2, i2) ∧
      integrate ca cg ticks data start stop it = some (resultOf ca cg ticks (resultOf ca cg ticks .zero s1) s2, i2) := by
  obtain ⟨s1, i1, e1, c1, _, r1⟩ := loop_spec ca cg ticks h mid (data.length + 2) start it hr h1 (by omega)
  obtain ⟨s2, i2, e2, c2, _, r2⟩ := loop_spec ca cg ticks h stop (data.length + 2) mid i1 r1 h2 (by omega)
  obtain ⟨s3, i3, e3, c3, _, r3⟩ := loop_spec ca cg ticks h stop (data.length + 2) start it hr (by omega) (by omega)
  have unfoldI : ∀ (a b : Int) (i : Nat), a ≤ b → Ready data a i → integrate ca cg ticks data a b i =
      loop ca cg ticks data b (data.length + 2) a i .zero := by
    rintro a b i hab ⟨d, hd, hle, hnext⟩
    unfold integrate
    rw [if_neg (by omega), hd]
    simp only [Option.bind_eq_bind, Option.bind_some]
    rw [if_neg (by omega)]
    rcases hm : data[i + 1]? with _ | m
    · rfl
    · simp only
      rw [if_neg (by have := hnext m hm; omega)]
  refine ⟨s1, s2, i1, i2, c1, c2, by rw [unfoldI _ _ _ h1 hr, e1], by rw [unfoldI _ _ _ h2 r1, e2], ?_⟩
  rw [unfoldI _ _ _ (by omega) hr]
  have big := loop_split ca cg ticks h h2 hmid _ _ _ _ .zero _ _ _ hr h1 (e1 _) (e2 _)
  have big' := loop_more ca cg ticks data stop _ (data.length + 2) _ _ _ _ (e3 .zero)
  rw [big] at big'
  rw [e3, ← big']

/-- Measurements followed by measurements: the second ones are seen in the frame after the first ones. -/
def combine (r s : Result) (t : ℝ) : Result :=
  ⟨add r.velocity (r.rotation.rotate s.velocity), add (add r.translation (scale t r.velocity)) (r.rotation.rotate s.translation),
    r.rotation.mul s.rotation⟩

theorem chain_seconds {ticks : ℝ} : ∀ {a b : Int} {ss : List Segment}, Chain a b ss → (ss.map (Segment.seconds ticks)).sum = (b - a : Int) / ticks := by
  intro a b ss
  induction ss generalizing a with
  | nil => intro h; simp [show a = b from h]
  | cons s ss ih =>
    rintro ⟨h1, h2, h3⟩
    rw [List.map_cons, List.sum_cons, ih h3, Segment.seconds, h1]
    push_cast
    ring

theorem rotate_add (q : Quat) (v w : V3) : q.rotate (add v w) = add (q.rotate v) (q.rotate w) := by
  ext <;> simp only [Quat.rotate, cross, add] <;> ring

theorem rotate_scale (q : Quat) (t : ℝ) (v : V3) : q.rotate (scale t v) = scale t (q.rotate v) := by
  ext <;> simp only [Quat.rotate, cross, scale] <;> ring

theorem resultOf_unit (ca cg : V3 → V3) (ticks : ℝ) : ∀ {ss : List Segment}, (∀ s ∈ ss, (fromAngleAxis (scale (s.seconds ticks) (cg s.d.gyro))).Unit) →
    ∀ {r : Result}, r.rotation.Unit → (resultOf ca cg ticks r ss).rotation.Unit := by
  intro ss
  induction ss with
  | nil => intro _ r hr; exact hr
  | cons s ss ih =>
    intro hu r hr
    exact ih (fun s' hs' => hu s' (List.mem_cons_of_mem _ hs')) (unit_mul hr (hu s List.mem_cons_self))

/-- **C73**: the combination of the two parts, if the rotations of all steps have norm one. -/
theorem resultOf_combine (ca cg : V3 → V3) (ticks : ℝ) {ss : List Segment}
    (hu : ∀ s ∈ ss, (fromAngleAxis (scale (s.seconds ticks) (cg s.d.gyro))).Unit) {r : Result} (hr : r.rotation.Unit) :
    resultOf ca cg ticks r ss = combine r (resultOf ca cg ticks .zero ss) (ss.map (Segment.seconds ticks)).sum := by
  have key : ∀ (ss : List Segment), (∀ s ∈ ss, (fromAngleAxis (scale (s.seconds ticks) (cg s.d.gyro))).Unit) → ∀ (s0 : Result) (t : ℝ), s0.rotation.Unit →
      resultOf ca cg ticks (combine r s0 t) ss = combine r (resultOf ca cg ticks s0 ss) (t + (ss.map (Segment.seconds ticks)).sum) := by
    intro ss
    induction ss with
    | nil => intro _ s0 t _; simp [resultOf]
    | cons s ss ih =>
      intro hu s0 t hs0
      have hu1 := hu s List.mem_cons_self
      have hstep : (combine r s0 t).step ca cg s.d (s.seconds ticks) = combine r (s0.step ca cg s.d (s.seconds ticks)) (t + s.seconds ticks) := by
        have hq := unit_mul hs0 hu1
        have e : (r.rotation.mul s0.rotation).mul (fromAngleAxis (scale (s.seconds ticks) (cg s.d.gyro))) =
            r.rotation.mul (s0.rotation.mul (fromAngleAxis (scale (s.seconds ticks) (cg s.d.gyro)))) := quat_mul_assoc _ _ _
        simp only [Result.step, combine, e, rotate_mul hr hq, rotate_add, rotate_scale, Result.mk.injEq, and_true]
        constructor
        · ext <;> simp only [add] <;> ring
        · ext <;> simp only [add, scale] <;> ring
      have := ih (fun s' hs' => hu s' (List.mem_cons_of_mem _ hs')) (s0.step ca cg s.d (s.seconds ticks)) (t + s.seconds ticks)
        (unit_mul hs0 hu1)
      rw [List.map_cons, List.sum_cons, ← add_assoc]
      refine Eq.trans ?_ this
      show resultOf ca cg ticks ((combine r s0 t).step ca cg s.d (s.seconds ticks)) ss = _
      rw [hstep]
  have h0 : combine r .zero 0 = r := by
    have z : r.rotation.rotate ⟨0, 0, 0⟩ = ⟨0, 0, 0⟩ := by ext <;> simp [Quat.rotate, cross]
    have o : r.rotation.mul ⟨1, 0, 0, 0⟩ = r.rotation := by ext <;> simp [Quat.mul]
    rcases r with ⟨v, p, q⟩
    simp only [combine, Result.zero] at z o ⊢
    rw [z, o]
    simp [add, scale]
  have := key ss hu .zero 0 (by simp [Result.zero, Quat.Unit])
  rw [h0, zero_add] at this
  exact this

/-! ### Constant angular velocity -/

theorem norm_scale {t : ℝ} (ht : 0 ≤ t) (w : V3) : (scale t w).norm = t * w.norm := by
  have h1 := norm_sq (scale t w)
  have h2 := norm_sq w
  have : (scale t w).norm ^ 2 = (t * w.norm) ^ 2 := by
    rw [h1, mul_pow, h2]; simp only [scale]; ring
  exact (sq_eq_sq₀ (norm_nonneg' _) (mul_nonneg ht (norm_nonneg' _))).1 this

/-- Rotations around the same axis add up. -/
theorem fromAngleAxis_add {a b : ℝ} (w : V3) (ha : 0 ≤ a) (hb : 0 ≤ b) (h1 : 1 / 10 ^ 4 < a * w.norm) (h2 : 1 / 10 ^ 4 < b * w.norm) :
    (fromAngleAxis (scale a w)).mul (fromAngleAxis (scale b w)) = fromAngleAxis (scale (a + b) w) := by
  have big : ∀ t : ℝ, 0 ≤ t → 1 / 10 ^ 4 < t * w.norm → fromAngleAxis (scale t w) = ⟨Real.cos (t * w.norm / 2), Real.sin (t * w.norm / 2) / w.norm * w.x,
      Real.sin (t * w.norm / 2) / w.norm * w.y, Real.sin (t * w.norm / 2) / w.norm * w.z⟩ := by
    intro t ht h
    have hn := norm_scale ht w
    have hsq := norm_sq (scale t w)
    rw [hn] at hsq
    have hc : (scale t w).x * (scale t w).x + (scale t w).y * (scale t w).y + (scale t w).z * (scale t w).z > 1 / 10 ^ 8 := by nlinarith
    have ht0 : t ≠ 0 := by rintro rfl; rw [zero_mul] at h; norm_num at h
    have hw0 : w.norm ≠ 0 := by intro h0; rw [h0, mul_zero] at h; norm_num at h
    unfold fromAngleAxis
    rw [if_pos hc, hn]
    simp only [scale, Quat.mk.injEq, true_and]
    refine ⟨?_, ?_, ?_⟩ <;> field_simp
  have hw0 : w.norm ≠ 0 := by intro h0; rw [h0, mul_zero] at h1; norm_num at h1
  have hsum : 1 / 10 ^ 4 < (a + b) * w.norm := by nlinarith
  rw [big a ha h1, big b hb h2, big (a + b) (by linarith) hsum]
  have e : (a + b) * w.norm / 2 = a * w.norm / 2 + b * w.norm / 2 := by ring
  rw [e, Real.cos_add, Real.sin_add]
  have hsq := norm_sq w
  have hinv : (w.norm)⁻¹ ^ 2 * (w.x ^ 2 + w.y ^ 2 + w.z ^ 2) = 1 := by
    rw [← hsq]; field_simp
  ext
  · simp only [Quat.mul, div_eq_mul_inv]
    linear_combination -(Real.sin (a * w.norm * 2⁻¹) * Real.sin (b * w.norm * 2⁻¹)) * hinv
  · simp only [Quat.mul]; ring
  · simp only [Quat.mul]; ring
  · simp only [Quat.mul]; ring

/-- **C73**: for a constant angular velocity the result is exactly the rotation by it, however the time is cut by the measurements, if
none of the parts turns by less than 0.0001 radians. -/
theorem constant_rotation (ca cg : V3 → V3) {ticks : ℝ} (ht : 0 < ticks) {w : V3} {start stop : Int} {ss : List Segment} (hc : Chain start stop ss)
    (hw : ∀ s ∈ ss, cg s.d.gyro = w) (hbig : ∀ s ∈ ss, 1 / 10 ^ 4 < s.seconds ticks * w.norm) (r : Result) :
    (resultOf ca cg ticks r ss).rotation = r.rotation.mul (fromAngleAxis (scale ((stop - start : Int) / ticks) w)) := by
  have pos : ∀ {a b : Int} {ss : List Segment}, Chain a b ss → a ≤ b := by
    intro a b ss
    induction ss generalizing a with
    | nil => intro h; exact le_of_eq h
    | cons s ss ih => rintro ⟨_, h2, h3⟩; exact le_trans h2.le (ih h3)
  have zero : fromAngleAxis (scale 0 w) = ⟨1, 0, 0, 0⟩ := by
    unfold fromAngleAxis scale
    simp
  induction ss generalizing start r with
  | nil =>
    have : start = stop := hc
    subst this
    simp only [resultOf, List.foldl_nil, sub_self, Int.cast_zero, zero_div, zero]
    ext <;> simp [Quat.mul]
  | cons s ss ih =>
    obtain ⟨h1, h2, h3⟩ := hc
    have e := ih h3 (fun s' hs' => hw s' (List.mem_cons_of_mem _ hs')) (fun s' hs' => hbig s' (List.mem_cons_of_mem _ hs'))
      (r.step ca cg s.d (s.seconds ticks))
    have e' : (resultOf ca cg ticks r (s :: ss)).rotation = (resultOf ca cg ticks (r.step ca cg s.d (s.seconds ticks)) ss).rotation := rfl
    rw [e', e]
    have er : (r.step ca cg s.d (s.seconds ticks)).rotation = r.rotation.mul (fromAngleAxis (scale (s.seconds ticks) w)) := by
      simp only [Result.step, hw s List.mem_cons_self]
    rw [er, quat_mul_assoc]
    congr 1
    have hpos : (0 : ℝ) ≤ s.seconds ticks := by
      unfold Segment.seconds
      have : (0 : ℝ) ≤ ((s.stop - s.start : Int) : ℝ) := by exact_mod_cast (by omega : 0 ≤ s.stop - s.start)
      positivity
    have hsum : s.seconds ticks + ((stop - s.stop : Int) : ℝ) / ticks = ((stop - start : Int) : ℝ) / ticks := by
      unfold Segment.seconds
      rw [h1, ← add_div]
      congr 1
      push_cast
      ring
    rcases hss : ss with _ | ⟨s2, ss2⟩
    · subst hss
      have : s.stop = stop := h3
      rw [← hsum, this, sub_self, Int.cast_zero, zero_div, zero, add_zero]
      ext <;> simp [Quat.mul]
    · subst hss
      obtain ⟨g1, g2, g3⟩ := h3
      have hb2 := hbig s2 (by simp)
      have hle := pos g3
      have hmono : s2.seconds ticks ≤ ((stop - s.stop : Int) : ℝ) / ticks := by
        unfold Segment.seconds
        rw [g1]
        apply div_le_div_of_nonneg_right _ ht.le
        exact_mod_cast (by omega : s2.stop - s.stop ≤ stop - s.stop)
      have hpos2 : (0 : ℝ) ≤ ((stop - s.stop : Int) : ℝ) / ticks := by
        have : (0 : ℝ) ≤ ((stop - s.stop : Int) : ℝ) := by exact_mod_cast (by omega : 0 ≤ stop - s.stop)
        positivity
      rw [← hsum, fromAngleAxis_add w hpos hpos2 (hbig s List.mem_cons_self) (lt_of_lt_of_le hb2 (mul_le_mul_of_nonneg_right hmono (norm_nonneg' w)))]

/-- **C73**: smaller rotations are approximated: the norm of the quaternion may grow, by at most `1.25e-9` in each step. -/
theorem rotation_norm (ca cg : V3 → V3) (ticks : ℝ) (ss : List Segment) :
    1 ≤ (resultOf ca cg ticks .zero ss).rotation.normSq ∧ (resultOf ca cg ticks .zero ss).rotation.normSq ≤ (1 + 1 / (4 * 10 ^ 8)) ^ ss.length := by
  have hmul : ∀ a b : Quat, (a.mul b).normSq = a.normSq * b.normSq := by
    intro a b; simp only [Quat.normSq, Quat.mul]; ring
  have hstep : ∀ v : V3, 1 ≤ (fromAngleAxis v).normSq ∧ (fromAngleAxis v).normSq ≤ 1 + 1 / (4 * 10 ^ 8) := by
    intro v
    by_cases h : v.x * v.x + v.y * v.y + v.z * v.z > 1 / 10 ^ 8
    · have hn : 1 / 10 ^ 4 < v.norm := by
        have := norm_sq v
        by_contra hc
        have hc := not_lt.1 hc
        nlinarith [norm_nonneg' v]
      have := unit_fromAngleAxis hn
      have : (fromAngleAxis v).normSq = 1 := by rw [normSq_eq]; exact this
      rw [this]
      norm_num
    · have : (fromAngleAxis v).normSq = 1 + 1 / 4 * (v.x * v.x + v.y * v.y + v.z * v.z) := by
        unfold fromAngleAxis
        rw [if_neg h]
        simp only [Quat.normSq]
        ring
      rw [this]
      have h := not_lt.1 h
      constructor
      · nlinarith [mul_self_nonneg v.x, mul_self_nonneg v.y, mul_self_nonneg v.z]
      · norm_num at h ⊢; linarith
  have hc0 : (0 : ℝ) ≤ 1 + 1 / (4 * 10 ^ 8) := by norm_num
  generalize (1 + 1 / (4 * 10 ^ 8) : ℝ) = c at hstep hc0 ⊢
  have key : ∀ (ss : List Segment) (r : Result), 1 ≤ r.rotation.normSq → r.rotation.normSq ≤ (resultOf ca cg ticks r ss).rotation.normSq ∧
      (resultOf ca cg ticks r ss).rotation.normSq ≤ r.rotation.normSq * c ^ ss.length := by
    intro ss
    induction ss with
    | nil => intro r _; simp [resultOf]
    | cons s ss ih =>
      intro r hr
      obtain ⟨s1, s2⟩ := hstep (scale (s.seconds ticks) (cg s.d.gyro))
      have e : (r.step ca cg s.d (s.seconds ticks)).rotation.normSq = r.rotation.normSq * (fromAngleAxis (scale (s.seconds ticks) (cg s.d.gyro))).normSq :=
        hmul _ _
      have hge : r.rotation.normSq ≤ (r.step ca cg s.d (s.seconds ticks)).rotation.normSq := by rw [e]; nlinarith
      obtain ⟨i1, i2⟩ := ih (r.step ca cg s.d (s.seconds ticks)) (le_trans hr hge)
      refine ⟨le_trans hge i1, le_trans i2 ?_⟩
      rw [e, List.length_cons, pow_succ, mul_assoc, mul_comm (c ^ ss.length)]
      apply mul_le_mul_of_nonneg_left _ (by linarith)
      apply mul_le_mul_of_nonneg_right s2
      positivity
  have h1 : Result.zero.rotation.normSq = 1 := by simp [Result.zero, Quat.normSq]
  have := key ss .zero (by rw [h1])
  rw [h1, one_mul] at this
  exact this

/-! ### Constant acceleration -/

/-- The sum of the squares of the lengths of the segments. -/
noncomputable def squares (ticks : ℝ) (ss : List Segment) : ℝ := (ss.map fun s => s.seconds ticks ^ 2).sum

/-- **C73**: without rotation and for a constant acceleration, the velocity is exactly the acceleration times the time; the translation
is too long by half of the sum of the squares of the times between measurements. -/
theorem constant_acceleration (ca cg : V3 → V3) {ticks : ℝ} {a : V3} {start stop : Int} {ss : List Segment} (hc : Chain start stop ss)
    (hg : ∀ s ∈ ss, cg s.d.gyro = ⟨0, 0, 0⟩) (ha : ∀ s ∈ ss, ca s.d.acceleration = a) :
    resultOf ca cg ticks .zero ss = ⟨scale ((stop - start : Int) / ticks) a,
      scale ((((stop - start : Int) / ticks) ^ 2 + squares ticks ss) / 2) a, ⟨1, 0, 0, 0⟩⟩ := by
  have zero : ∀ t : ℝ, fromAngleAxis (scale t ⟨0, 0, 0⟩) = ⟨1, 0, 0, 0⟩ := by
    intro t; unfold fromAngleAxis scale; simp
  have key : ∀ (ss : List Segment) (start : Int), Chain start stop ss → (∀ s ∈ ss, cg s.d.gyro = ⟨0, 0, 0⟩) → (∀ s ∈ ss, ca s.d.acceleration = a) →
      ∀ v p : V3, resultOf ca cg ticks ⟨v, p, ⟨1, 0, 0, 0⟩⟩ ss = ⟨add v (scale ((stop - start : Int) / ticks) a),
        add (add p (scale ((stop - start : Int) / ticks) v)) (scale ((((stop - start : Int) / ticks) ^ 2 + squares ticks ss) / 2) a), ⟨1, 0, 0, 0⟩⟩ := by
    intro ss
    induction ss with
    | nil =>
      intro start hc _ _ v p
      have : start = stop := hc
      subst this
      simp [resultOf, squares, add, scale]
    | cons s ss ih =>
      rintro start ⟨h1, h2, h3⟩ hg ha v p
      have e' : resultOf ca cg ticks ⟨v, p, ⟨1, 0, 0, 0⟩⟩ (s :: ss) = resultOf ca cg ticks (Result.step ca cg ⟨v, p, ⟨1, 0, 0, 0⟩⟩ s.d (s.seconds ticks)) ss := rfl
      have e1 : Result.step ca cg ⟨v, p, ⟨1, 0, 0, 0⟩⟩ s.d (s.seconds ticks) = ⟨add v (scale (s.seconds ticks) a),
          add p (scale (s.seconds ticks) (add v (scale (s.seconds ticks) a))), ⟨1, 0, 0, 0⟩⟩ := by
        have o : (Quat.mk 1 0 0 0).mul ⟨1, 0, 0, 0⟩ = ⟨1, 0, 0, 0⟩ := by ext <;> simp [Quat.mul]
        simp only [Result.step, hg s List.mem_cons_self, ha s List.mem_cons_self, zero, o, rotate_one]
      rw [e', e1, ih s.stop h3 (fun s' hs' => hg s' (List.mem_cons_of_mem _ hs')) (fun s' hs' => ha s' (List.mem_cons_of_mem _ hs'))]
      have hsum : ((stop - start : Int) : ℝ) / ticks = s.seconds ticks + ((stop - s.stop : Int) : ℝ) / ticks := by
        unfold Segment.seconds
        rw [h1, ← add_div]
        congr 1
        push_cast
        ring
      have hsq : squares ticks (s :: ss) = s.seconds ticks ^ 2 + squares ticks ss := by simp [squares]
      rw [hsum, hsq]
      simp only [Result.mk.injEq, and_true]
      constructor <;> ext <;> simp only [add, scale] <;> ring
  rw [Result.zero, key ss start hc hg ha]
  simp [add, scale]

theorem squares_pos {ticks : ℝ} (ht : 0 < ticks) : ∀ {a b : Int} {ss : List Segment}, Chain a b ss → 0 ≤ squares ticks ss ∧ (a < b → 0 < squares ticks ss) := by
  intro a b ss
  induction ss generalizing a with
  | nil => intro h; have : a = b := h; subst this; simp [squares]
  | cons s ss ih =>
    rintro ⟨h1, h2, h3⟩
    have hs : 0 < s.seconds ticks ^ 2 := by
      have : (0 : ℝ) < ((s.stop - s.start : Int) : ℝ) := by exact_mod_cast (by omega : 0 < s.stop - s.start)
      unfold Segment.seconds
      positivity
    have e : squares ticks (s :: ss) = s.seconds ticks ^ 2 + squares ticks ss := by simp [squares]
    have := (ih h3).1
    rw [e]
    exact ⟨by linarith, fun _ => by linarith⟩

/-- A body in uniform motion whose accelerometer measures gravity: the extrapolated velocity and rotation stay the same, and the position
moves by the velocity times the time, and against gravity by half of the sum of the squares of the times between measurements times gravity. -/
theorem uniform_drift {ticks : ℝ} (ht : 0 < ticks) {data : List Data} (h : Sorted data) {pose : Rigid3} (hp : pose.Proper) {gravity : V3} (velocity : V3)
    (hg : ∀ d ∈ data, d.gyro = ⟨0, 0, 0⟩) (ha : ∀ d ∈ data, d.acceleration = pose.rotation.conjugate.rotate gravity) {previous time : Int}
    (hlt : previous < time) {it : Nat} (hr : Ready data previous it) :
    ∃ q it', extrapolate ticks data pose velocity gravity previous time it =
      some ((⟨add (add pose.translation (scale ((time - previous : Int) / ticks) (pose.rotation.rotate velocity))) (scale (q / 2) gravity), pose.rotation⟩,
        pose.rotation.rotate velocity), it') ∧ 0 < q ∧ Ready data time it' := by
  obtain ⟨ss, it', e, hc, hl, hr'⟩ := (integrate_spec id id ticks h previous time it).2 hlt.le hr
  have hres := constant_acceleration id id (ticks := ticks) (a := pose.rotation.conjugate.rotate gravity) hc
    (fun s hs => hg _ (hl s hs).1) (fun s hs => ha _ (hl s hs).1)
  refine ⟨squares ticks ss, it', ?_, (squares_pos ht hc).2 hlt, hr'⟩
  simp only [extrapolate, e, hres, Option.bind_eq_bind, Option.bind_some, Option.some.injEq, Prod.mk.injEq, and_true, rotate_add, rotate_scale,
    (rotate_inverse hp gravity).1]
  have o : pose.rotation.mul ⟨1, 0, 0, 0⟩ = pose.rotation := by ext <;> simp [Quat.mul]
  rw [o]
  constructor
  · congr 1
    ext <;> simp only [add, scale] <;> ring
  · ext <;> simp only [add, scale] <;> ring

/-- **C73**: a body at rest whose accelerometer measures gravity: the extrapolated velocity stays zero and the rotation stays the
same, but the position moves against gravity. -/
theorem rest_drift {ticks : ℝ} (ht : 0 < ticks) {data : List Data} (h : Sorted data) {pose : Rigid3} (hp : pose.Proper) {gravity : V3}
    (hg : ∀ d ∈ data, d.gyro = ⟨0, 0, 0⟩) (ha : ∀ d ∈ data, d.acceleration = pose.rotation.conjugate.rotate gravity) {previous time : Int}
    (hlt : previous < time) {it : Nat} (hr : Ready data previous it) :
    ∃ q it', extrapolate ticks data pose ⟨0, 0, 0⟩ gravity previous time it =
      some ((⟨add pose.translation (scale (q / 2) gravity), pose.rotation⟩, ⟨0, 0, 0⟩), it') ∧ 0 < q ∧ Ready data time it' := by
  obtain ⟨q, it', e, h1, h2⟩ := uniform_drift ht h hp ⟨0, 0, 0⟩ hg ha hlt hr
  have z : pose.rotation.rotate ⟨0, 0, 0⟩ = ⟨0, 0, 0⟩ := by ext <;> simp [Quat.rotate, cross]
  refine ⟨q, it', ?_, h1, h2⟩
  rw [e, z]
  simp [add, scale]

/-- The velocity computed from two poses is that of the motion from one to the other, in the tracking frame. -/
theorem tracking_velocity {ticks : ℝ} {pose before : Rigid3} (hp : pose.Proper) (time timeBefore : Int) :
    pose.rotation.rotate (trackingVelocity ticks pose time before timeBefore) = scale (1 / ((time - timeBefore : Int) / ticks))
      ⟨pose.translation.x - before.translation.x, pose.translation.y - before.translation.y, pose.translation.z - before.translation.z⟩ := by
  have e : pose.inverse.rotation = pose.rotation.conjugate := rfl
  rw [trackingVelocity, rotate_scale, e, (rotate_inverse hp _).1]

/-! ### The optimization problem -/

theorem skip_ready {data : List Data} (h : Sorted data) {time : Int} : ∀ (fuel it : Nat) {d : Data}, data[it]? = some d → d.time ≤ time →
    data.length - it ≤ fuel → Ready data time (skip data time fuel it) := by
  intro fuel
  induction fuel with
  | zero =>
    intro it d hd _ hf
    have := (List.getElem?_eq_some_iff.1 hd).1
    omega
  | succ fuel ih =>
    intro it d hd hle hf
    unfold skip
    rcases hn : data[it + 1]? with _ | n
    · exact ⟨d, hd, hle, fun m hm => by rw [hn] at hm; exact absurd hm (by simp)⟩
    · simp only
      by_cases hc : n.time ≤ time
      · rw [if_pos hc]
        exact ih (it + 1) hn hc (by omega)
      · rw [if_neg hc]
        exact ⟨d, hd, hle, fun m hm => by rw [hn] at hm; injection hm with e; rw [← e]; omega⟩

theorem tdiv_half {a : Int} (h : 0 ≤ a) : 0 ≤ a.tdiv 2 ∧ a.tdiv 2 ≤ a := by
  rw [Int.tdiv_eq_ediv_of_nonneg h]
  omega

/-- **C73**: if the iterator is at a measurement that is not after the first node, nothing aborts for nodes in the order of their times,
and this remains so for the next node. -/
theorem measure_total (ticks : ℝ) {data : List Data} (h : Sorted data) {t1 t2 t3 : Int} (h1 : t1 ≤ t2) (h2 : t2 ≤ t3) {it : Nat} {d : Data}
    (hd : data[it]? = some d) (hle : d.time ≤ t1) : ∃ q v it', measure ticks data t1 t2 t3 it = some (q, v, it') ∧ Ready data t2 it' := by
  have hr := skip_ready h data.length it hd hle (by omega)
  have ha := tdiv_half (show 0 ≤ t2 - t1 by omega)
  have hb := tdiv_half (show 0 ≤ t3 - t2 by omega)
  obtain ⟨s1, i1, e1, _, _, r1⟩ := (integrate_spec id id ticks h t1 t2 _).2 h1 hr
  obtain ⟨s2, i2, e2, _, _, r2⟩ := (integrate_spec id id ticks h t1 (t1 + (t2 - t1).tdiv 2) _).2 (by omega) hr
  obtain ⟨s3, i3, e3, _, _, _⟩ := (integrate_spec id id ticks h (t1 + (t2 - t1).tdiv 2) (t2 + (t3 - t2).tdiv 2) _).2 (by omega) r2
  refine ⟨(resultOf id id ticks .zero s1).rotation, ((inverseQuat (resultOf id id ticks .zero s1).rotation).mul
    (resultOf id id ticks .zero s2).rotation).rotate (resultOf id id ticks .zero s3).velocity, i1, ?_, r1⟩
  simp only [measure, e1, e2, e3, Option.bind_eq_bind, Option.bind_some]

/-- **C73**: the true motion is a solution.  A body that does not turn and has constant acceleration `a`, with an IMU that measures `a`
and gravity in its frame: the residuals for the measured rotation and velocity are zero at the true poses, for durations that are even
numbers of ticks. -/
theorem true_motion {ticks : ℝ} (ht : 0 < ticks) {data : List Data} (h : Sorted data) {q : Quat} (hq : q.Unit) (p v a : V3) (gravity : ℝ)
    (hg : ∀ d ∈ data, d.gyro = ⟨0, 0, 0⟩) (ha : ∀ d ∈ data, d.acceleration = q.conjugate.rotate ⟨a.x, a.y, a.z + gravity⟩) {t1 d1 d2 : Int}
    (h1 : 0 < d1) (h2 : 0 < d2) {it : Nat} {d : Data} (hd : data[it]? = some d) (hle : d.time ≤ t1) (sr sa : ℝ) :
    ∃ dq dv it', measure ticks data t1 (t1 + 2 * d1) (t1 + 2 * d1 + 2 * d2) it = some (dq, dv, it') ∧
      rotation3 sr dq q q ⟨1, 0, 0, 0⟩ = ⟨0, 0, 0⟩ ∧
      acceleration3 sa dv ((2 * d1 : Int) / ticks) ((2 * d2 : Int) / ticks) q (ballistic p v a (t1 / ticks))
        (ballistic p v a (t1 / ticks + (2 * d1 : Int) / ticks)) (ballistic p v a (t1 / ticks + (2 * d1 : Int) / ticks + (2 * d2 : Int) / ticks))
        gravity ⟨1, 0, 0, 0⟩ = ⟨0, 0, 0⟩ := by
  have hr := skip_ready h data.length it hd hle (by omega)
  have u1 : (Quat.mk 1 0 0 0).Unit := by simp [Quat.Unit]
  obtain ⟨s1, i1, e1, c1, l1, r1⟩ := (integrate_spec id id ticks h t1 (t1 + 2 * d1) _).2 (by omega) hr
  obtain ⟨s2, i2, e2, c2, l2, r2⟩ := (integrate_spec id id ticks h t1 (t1 + d1) _).2 (by omega) hr
  obtain ⟨s3, i3, e3, c3, l3, r3⟩ := (integrate_spec id id ticks h (t1 + d1) (t1 + 2 * d1 + d2) _).2 (by omega) r2
  have k1 := constant_acceleration id id (ticks := ticks) c1 (fun s hs => hg _ (l1 s hs).1) (fun s hs => ha _ (l1 s hs).1)
  have k2 := constant_acceleration id id (ticks := ticks) c2 (fun s hs => hg _ (l2 s hs).1) (fun s hs => ha _ (l2 s hs).1)
  have k3 := constant_acceleration id id (ticks := ticks) c3 (fun s hs => hg _ (l3 s hs).1) (fun s hs => ha _ (l3 s hs).1)
  have m1 : (t1 + 2 * d1 - t1).tdiv 2 = d1 := by
    rw [show t1 + 2 * d1 - t1 = 2 * d1 by ring, Int.tdiv_eq_ediv_of_nonneg (by omega)]; omega
  have m2 : (t1 + 2 * d1 + 2 * d2 - (t1 + 2 * d1)).tdiv 2 = d2 := by
    rw [show t1 + 2 * d1 + 2 * d2 - (t1 + 2 * d1) = 2 * d2 by ring, Int.tdiv_eq_ediv_of_nonneg (by omega)]; omega
  have i0 : (inverseQuat ⟨1, 0, 0, 0⟩).mul ⟨1, 0, 0, 0⟩ = ⟨1, 0, 0, 0⟩ := by
    ext <;> simp [inverseQuat, Quat.mul, Quat.normSq]
  refine ⟨⟨1, 0, 0, 0⟩, scale (((t1 + 2 * d1 + d2 - (t1 + d1) : Int) : ℝ) / ticks) (q.conjugate.rotate ⟨a.x, a.y, a.z + gravity⟩), i1, ?_, ?_, ?_⟩
  · simp only [measure, m1, m2, e1, e2, e3, Option.bind_eq_bind, Option.bind_some, k1, k2, k3, i0, rotate_one]
  · have e0 : q.conjugate.mul q = ⟨1, 0, 0, 0⟩ := conjugate_mul hq
    simp only [rotation3, e0]
    ext <;> simp [Quat.mul, Quat.conjugate]
  · by_cases hs : sa = 0
    · subst hs; simp [acceleration3]
    · have p1 : (0 : ℝ) < ((2 * d1 : Int) : ℝ) / ticks := by
        have : (0 : ℝ) < ((2 * d1 : Int) : ℝ) := by exact_mod_cast (by omega : 0 < 2 * d1)
        positivity
      have p2 : (0 : ℝ) < ((2 * d2 : Int) : ℝ) / ticks := by
        have : (0 : ℝ) < ((2 * d2 : Int) : ℝ) := by exact_mod_cast (by omega : 0 < 2 * d2)
        positivity
      refine (acceleration3_zero_iff hs p1 p2 hq u1 p v a _ gravity _).2 ?_
      rw [rotate_one, rotate_scale, (rotate_inverse hq _).1]
      have et : ((t1 + 2 * d1 + d2 - (t1 + d1) : Int) : ℝ) / ticks = (((2 * d1 : Int) : ℝ) / ticks + ((2 * d2 : Int) : ℝ) / ticks) / 2 := by
        push_cast
        field_simp
        ring
      rw [et]
      ext <;> simp only [scale] <;> ring

/-! ### Examples -/

/-- Measurements at rest every ten ticks. -/
def atRest : List Data := [⟨0, ⟨0, 0, 10⟩, ⟨0, 0, 0⟩⟩, ⟨10, ⟨0, 0, 10⟩, ⟨0, 0, 0⟩⟩, ⟨20, ⟨0, 0, 10⟩, ⟨0, 0, 0⟩⟩]

example : Sorted atRest ∧ Ready atRest 5 0 ∧ Ready atRest 12 1 := by
  refine ⟨by simp [Sorted, atRest], ⟨_, rfl, by decide, fun n hn => ?_⟩, ⟨_, rfl, by decide, fun n hn => ?_⟩⟩
  · simp [atRest] at hn; rw [← hn]; norm_num
  · simp [atRest] at hn; rw [← hn]; norm_num

/-- From 5 to 25 at ten ticks per second: two seconds, so the velocity is 20. -/
example : ∃ r it, integrate id id 10 atRest 5 25 0 = some (r, it) ∧ r.velocity = ⟨0, 0, 20⟩ := by
  have hs : Sorted atRest := by simp [Sorted, atRest]
  have hr : Ready atRest 5 0 := ⟨_, rfl, by decide, fun n hn => by simp [atRest] at hn; rw [← hn]; norm_num⟩
  obtain ⟨ss, it', e, hc, hl, _⟩ := (integrate_spec id id 10 hs 5 25 0).2 (by norm_num) hr
  refine ⟨_, it', e, ?_⟩
  rw [constant_acceleration id id (a := ⟨0, 0, 10⟩) hc]
  · ext <;> simp [scale]
  · intro s hs
    have := (hl s hs).1
    simp only [atRest, List.mem_cons, List.not_mem_nil, or_false] at this
    rcases this with h | h | h <;> rw [h] <;> rfl
  · intro s hs
    have := (hl s hs).1
    simp only [atRest, List.mem_cons, List.not_mem_nil, or_false] at this
    rcases this with h | h | h <;> rw [h] <;> rfl

/-- Two measurements at the same time: integrating to that time leaves the iterator at the first of the two, and the next integration
aborts. -/
theorem equal_times_abort (ca cg : V3 → V3) (ticks : ℝ) (z : V3) :
    let data : List Data := [⟨0, z, z⟩, ⟨5, z, z⟩, ⟨5, z, z⟩, ⟨9, z, z⟩]
    (∃ r, integrate ca cg ticks data 0 5 0 = some (r, 1)) ∧ integrate ca cg ticks data 5 9 1 = none := by
  constructor
  · simp [integrate, loop]
  · simp [integrate]

end Verif.Imu
