import Verif.Props.GroundTruth
import Mathlib.Tactic.FieldSimp
import Mathlib.Tactic.LinearCombination
import Mathlib.Tactic.Positivity

/-!
# Errors of a trajectory against relations: theorems
-/

namespace Verif.GroundTruth

open Rigid InterpolationBuffer

/-! ### The poses of the trajectory -/

/-- The nodes as transforms with time. -/
def stamps (l : List Node) : List Stamped := l.map fun n => ⟨n.time, n.pose⟩

theorem push_room {b : Buffer} (hb : InOrder b.items) (hl : b.items.length < b.limit) (time : Int) (x : Rigid3) (b' : Buffer) :
    push b time x = some b' ↔ InOrder (b.items ++ [⟨time, x⟩]) ∧ b' = ⟨b.items ++ [⟨time, x⟩], b.limit⟩ := by
  constructor
  · intro h
    obtain ⟨h1, h2, h3⟩ := push_spec hb h
    refine ⟨h3, ?_⟩
    rw [removeOld_eq] at h2
    have : (b.items ++ [(⟨time, x⟩ : Stamped)]).length - b.limit = 0 := by simp; omega
    rw [this, List.drop_zero] at h2
    cases b'
    simp_all
  · rintro ⟨h, rfl⟩
    cases hp : push b time x with
    | none =>
      obtain ⟨y, hy, hlt⟩ := (push_none_iff hb).1 hp
      have := (List.pairwise_append.1 h).2.2 y hy ⟨time, x⟩ (by simp)
      simp only at this
      omega
    | some b' =>
      obtain ⟨h1, h2, h3⟩ := push_spec hb hp
      rw [removeOld_eq] at h2
      have : (b.items ++ [(⟨time, x⟩ : Stamped)]).length - b.limit = 0 := by simp; omega
      rw [this, List.drop_zero] at h2
      cases b'
      simp_all

theorem bufferOf_loop : ∀ (l : List Node) (b b' : Buffer), InOrder b.items → b.items.length + l.length ≤ b.limit →
    (l.foldlM (fun b n => push b n.time n.pose) b = some b' ↔ InOrder (b.items ++ stamps l) ∧ b' = ⟨b.items ++ stamps l, b.limit⟩)
  | [], b, b', hb, _ => by
    simp only [List.foldlM_nil, stamps, List.map_nil, List.append_nil]
    show some b = some b' ↔ _
    rw [Option.some.injEq]
    constructor
    · rintro rfl; exact ⟨hb, rfl⟩
    · rintro ⟨_, rfl⟩; rfl
  | n :: l, b, b', hb, hl => by
    simp only [List.length_cons] at hl
    rw [List.foldlM_cons]
    simp only [Option.bind_eq_bind, Option.bind_eq_some_iff]
    have e : b.items ++ stamps (n :: l) = (b.items ++ [⟨n.time, n.pose⟩]) ++ stamps l := by simp [stamps]
    rw [e]
    constructor
    · rintro ⟨b1, h1, h2⟩
      obtain ⟨h3, rfl⟩ := (push_room hb (by omega) _ _ _).1 h1
      exact (bufferOf_loop l _ b' h3 (by simp; omega)).1 h2
    · rintro ⟨h1, h2⟩
      have h3 : InOrder (b.items ++ [⟨n.time, n.pose⟩]) := (List.pairwise_append.1 h1).1
      exact ⟨_, (push_room hb (by omega) _ _ _).2 ⟨h3, rfl⟩, (bufferOf_loop l _ b' h3 (by simp; omega)).2 ⟨h1, h2⟩⟩

/-- **The buffer of a trajectory has all its nodes; it needs nodes in the order of time.** -/
theorem bufferOf_iff (t : Trajectory) (b : Buffer) : bufferOf t = some b ↔ t.nodes.Pairwise (fun x y => x.time ≤ y.time) ∧ b = ⟨stamps t.nodes, t.nodes.length⟩ := by
  unfold bufferOf
  rw [bufferOf_loop t.nodes _ b (by simp [InOrder]) (by simp)]
  simp only [List.nil_append]
  unfold InOrder stamps
  rw [List.pairwise_map]

/-- The time in the range of the buffer that is nearest. -/
def nearest (first last time : Int) : Int := max first (min last time)

/-- **Poses before the first node and after the last one are those at the ends.** -/
theorem lookupTransform_spec {eps : ℝ} {b : Buffer} {first last : Stamped} (hb : InOrder b.items) (h1 : b.items.head? = some first) (h2 : b.items.getLast? = some last) (time : Int) :
    lookupTransform eps b time = lookup eps b (nearest first.time last.time time) := by
  unfold lookupTransform nearest
  simp only [Option.bind_eq_bind, h1, h2, Option.bind_some]
  have hfl : first.time ≤ last.time := by
    cases hi : b.items with
    | nil => rw [hi] at h1; cases h1
    | cons x l =>
      rw [hi] at h1 h2 hb
      simp only [List.head?_cons, Option.some.injEq] at h1
      subst h1
      have := List.mem_of_getLast? h2
      rcases List.mem_cons.1 this with rfl | h
      · exact le_refl _
      · exact (List.pairwise_cons.1 hb).1 _ h
  have hh : has b time = true ↔ first.time ≤ time ∧ time ≤ last.time := by
    unfold has
    rw [h1, h2]
    simp
  split
  · rename_i h
    obtain ⟨k1, k2⟩ := hh.1 h
    rw [min_eq_right k2, max_eq_right k1]
  · rename_i h
    split
    · rename_i hlt
      rw [max_eq_left (le_trans (min_le_right _ _) (le_of_lt hlt))]
    · rename_i hlt
      have : last.time < time := by
        by_contra hc
        exact h (hh.2 ⟨by omega, by omega⟩)
      rw [min_eq_left (le_of_lt this), max_eq_right hfl]

/-- **There is a pose for each time**, once there is a node. -/
theorem lookupTransform_isSome {eps : ℝ} (he : 0 ≤ eps) {b : Buffer} (hb : InOrder b.items) (time : Int) : (∃ p, lookupTransform eps b time = some p) ↔ b.items ≠ [] := by
  constructor
  · rintro ⟨p, h⟩ hn
    unfold lookupTransform at h
    rw [hn] at h
    cases h
  · intro hn
    cases h1 : b.items.head? with
    | none => exact absurd (List.head?_eq_none_iff.1 h1) hn
    | some first =>
      cases h2 : b.items.getLast? with
      | none => exact absurd (List.getLast?_eq_none_iff.1 h2) hn
      | some last =>
        rw [lookupTransform_spec hb h1 h2, ← Option.isSome_iff_exists, lookup_iff he hb]
        refine ⟨⟨first, List.mem_of_head? h1, le_max_left _ _⟩, ?_⟩
        rcases le_total first.time (min last.time time) with h | h
        · exact ⟨last, List.mem_of_getLast? h2, by unfold nearest; rw [max_eq_right h]; exact min_le_left _ _⟩
        · exact ⟨first, List.mem_of_head? h1, by unfold nearest; rw [max_eq_left h]⟩

/-- **At the time of a node its pose is used**, if no node before has the same time. -/
theorem lookupTransform_node {eps : ℝ} (he : 0 ≤ eps) {b : Buffer} (hb : InOrder b.items) {front rest : List Stamped} {x : Stamped} (hi : b.items = front ++ x :: rest)
    (hf : ∀ y ∈ front, y.time ≠ x.time) : lookupTransform eps b x.time = some x.transform := by
  have hx : x ∈ b.items := by rw [hi]; simp
  have hcov : Covers b x.time := ⟨⟨x, hx, le_refl _⟩, x, hx, le_refl _⟩
  have hhas : has b x.time = true := (has_iff hb).2 hcov
  have hn : b.items ≠ [] := by rw [hi]; simp
  have e : lookupTransform eps b x.time = lookup eps b x.time := by
    unfold lookupTransform
    cases h1 : b.items.head? with
    | none => exact absurd (List.head?_eq_none_iff.1 h1) hn
    | some first =>
      cases h2 : b.items.getLast? with
      | none => exact absurd (List.getLast?_eq_none_iff.1 h2) hn
      | some last =>
        simp only [Option.bind_eq_bind, Option.bind_some]
        rw [if_pos hhas]
  rw [e]
  rcases lookup_spec he hb (time := x.time) with ⟨h, _⟩ | ⟨front', x', rest', h1, h2, h3, h4⟩ | ⟨front', x', y', rest', q, h1, h2, h3, _, _⟩
  · exact absurd hcov h
  · rw [h4]
    rw [hi] at h1
    rcases List.append_eq_append_iff.1 h1 with ⟨as, k1, k2⟩ | ⟨as, k1, k2⟩
    · cases as with
      | nil =>
        simp only [List.nil_append, List.cons.injEq] at k2
        rw [k2.1]
      | cons a as =>
        simp only [List.cons_append, List.cons.injEq] at k2
        exact absurd (by rw [k2.1]) (h3 a (by rw [k1]; simp))
    · cases as with
      | nil =>
        simp only [List.nil_append, List.cons.injEq] at k2
        rw [k2.1]
      | cons a as =>
        simp only [List.cons_append, List.cons.injEq] at k2
        exact absurd (by rw [← k2.1, h2]) (hf a (by rw [k1]; simp))
  · exfalso
    have hs := hb
    rw [h1] at hs hx
    have hs1 := List.pairwise_append.1 hs
    rcases List.mem_append.1 hx with h | h
    · have := hs1.2.2 x h x' (by simp)
      omega
    · rcases List.mem_cons.1 h with h | h
      · rw [h] at h2; omega
      · rcases List.mem_cons.1 h with h | h
        · rw [h] at h3; omega
        · have := (List.pairwise_cons.1 (List.pairwise_cons.1 hs1.2.1).2).1 x h
          omega

/-! ### One error -/

theorem error_sq (r : Rigid3) : r.translation.x * r.translation.x + r.translation.y * r.translation.y + r.translation.z * r.translation.z = r.translation.norm ^ 2 := by
  rw [norm_sq]; ring

/-- **The errors of a relation**: the distance between the first position as seen from the second pose and where it is expected to be seen, and the angle
between the second pose and the expected one. -/
theorem computeError_spec {a b e : Rigid3} (ha : a.Proper) (hb : b.Proper) (he : e.Proper) :
    √(computeError a b e).translationalSquared = gap (b.inverse.apply a.translation) ((a.mul e).inverse.apply a.translation) ∧
    √(computeError a b e).rotationalSquared = getAngle ((a.mul e).inverse.mul b) := by
  let a' : Motion := ⟨a, ha⟩
  let b' : Motion := ⟨b, hb⟩
  let e' : Motion := ⟨e, he⟩
  have h1 := error_norm a' b' e'
  have h2 := error_angle a' b' e'
  constructor
  · unfold computeError
    simp only
    rw [error_sq, Real.sqrt_sq (norm_nonneg' _)]
    exact h1
  · unfold computeError
    simp only
    rw [Real.sqrt_sq (angle_mem _).1]
    exact h2

/-- **The errors do not depend on the frame of the map.** -/
theorem computeError_move {m a b : Rigid3} (hm : m.Proper) (ha : a.Proper) (hb : b.Proper) (e : Rigid3) : computeError (m.mul a) (m.mul b) e = computeError a b e := by
  unfold computeError
  rw [between_move hm ha hb]

/-- **The rotational error is the same when the relation is turned around.** -/
theorem rotational_swap {a b e : Rigid3} (ha : a.Proper) (hb : b.Proper) (he : e.Proper) : (computeError b a e.inverse).rotationalSquared = (computeError a b e).rotationalSquared := by
  let a' : Motion := ⟨a, ha⟩
  let b' : Motion := ⟨b, hb⟩
  let e' : Motion := ⟨e, he⟩
  have h1 : getAngle ((b'⁻¹ * a') * (e'⁻¹)⁻¹).1 = getAngle ((a'⁻¹ * b') * e'⁻¹).1 := by
    have k : ((b'⁻¹ * a') * (e'⁻¹)⁻¹) = (e'⁻¹ * (a'⁻¹ * b'))⁻¹ := by group
    rw [k, coe_inv, angle_inverse (e'⁻¹ * (a'⁻¹ * b')).2, coe_mul, angle_comm (e'⁻¹).2 (a'⁻¹ * b').2, ← coe_mul]
  unfold computeError
  simp only
  exact congrArg (· ^ 2) h1

/-- The translational error is **not**: this is the remark in the code. -/
theorem translational_swap_differs : ∃ a b e : Rigid3, a.Proper ∧ b.Proper ∧ e.Proper ∧
    (computeError b a e.inverse).translationalSquared ≠ (computeError a b e).translationalSquared := by
  refine ⟨⟨⟨0, 0, 0⟩, ⟨1, 0, 0, 0⟩⟩, ⟨⟨1, 0, 0⟩, ⟨1, 0, 0, 0⟩⟩, ⟨⟨1, 0, 0⟩, ⟨0, 0, 0, 1⟩⟩, by simp [Rigid3.Proper, Quat.Unit], by simp [Rigid3.Proper, Quat.Unit], by simp [Rigid3.Proper, Quat.Unit], ?_⟩
  unfold computeError Rigid3.mul Rigid3.inverse Quat.rotate Quat.conjugate cross Quat.normalized Quat.mul Quat.normSq
  norm_num

theorem angle_zero {r : Rigid3} (hr : r.Proper) (h : getAngle r = 0) : r.rotation = ⟨1, 0, 0, 0⟩ ∨ r.rotation = ⟨-1, 0, 0, 0⟩ := by
  unfold getAngle at h
  have h1 : Complex.arg ⟨|r.rotation.w|, V3.norm ⟨r.rotation.x, r.rotation.y, r.rotation.z⟩⟩ = 0 := by linarith
  rw [Complex.arg_eq_zero_iff] at h1
  have h2 : V3.norm ⟨r.rotation.x, r.rotation.y, r.rotation.z⟩ = 0 := h1.2
  have h3 := norm_sq ⟨r.rotation.x, r.rotation.y, r.rotation.z⟩
  rw [h2] at h3
  simp only at h3
  have hx : r.rotation.x = 0 := by nlinarith [sq_nonneg r.rotation.x, sq_nonneg r.rotation.y, sq_nonneg r.rotation.z]
  have hy : r.rotation.y = 0 := by nlinarith [sq_nonneg r.rotation.x, sq_nonneg r.rotation.y, sq_nonneg r.rotation.z]
  have hz : r.rotation.z = 0 := by nlinarith [sq_nonneg r.rotation.x, sq_nonneg r.rotation.y, sq_nonneg r.rotation.z]
  have hu : r.rotation.w ^ 2 = 1 := by
    have := hr
    unfold Rigid3.Proper Quat.Unit at this
    rw [hx, hy, hz] at this
    linarith
  have hf : (r.rotation.w - 1) * (r.rotation.w + 1) = 0 := by linarith
  rcases mul_eq_zero.1 hf with hw | hw
  · have hw : r.rotation.w = 1 := by linarith
    left; ext <;> assumption
  · have hw : r.rotation.w = -1 := by linarith
    right; ext <;> assumption

/-- The other quaternion of no rotation. -/
def turn : Motion := ⟨⟨⟨0, 0, 0⟩, ⟨-1, 0, 0, 0⟩⟩, by unfold Rigid3.Proper Quat.Unit; norm_num⟩

theorem mul_turn (x : Motion) : (x * turn).1 = ⟨x.1.translation, x.1.rotation.neg⟩ := by
  have h : (x.1.rotation.mul turn.1.rotation).normalized = x.1.rotation.mul turn.1.rotation := normalized_unit (unit_mul x.2 turn.2)
  rw [coe_mul]
  unfold Rigid3.mul
  dsimp only
  rw [h]
  unfold turn Quat.rotate cross Quat.mul Quat.neg
  ext <;> simp

theorem turn_mul (x : Motion) : turn * x = x * turn := by
  apply Subtype.ext
  rw [mul_turn]
  have h : (turn.1.rotation.mul x.1.rotation).normalized = turn.1.rotation.mul x.1.rotation := normalized_unit (unit_mul turn.2 x.2)
  rw [coe_mul]
  unfold Rigid3.mul
  dsimp only
  rw [h]
  unfold turn Quat.rotate cross Quat.mul Quat.neg
  ext <;> simp

/-- **Both errors are zero exactly if the second pose is the expected one**; a quaternion and its negative are the same rotation. -/
theorem error_zero {a b e : Rigid3} (ha : a.Proper) (hb : b.Proper) (he : e.Proper) :
    ((computeError a b e).translationalSquared = 0 ∧ (computeError a b e).rotationalSquared = 0) ↔
      b.translation = (a.mul e).translation ∧ (b.rotation = (a.mul e).rotation ∨ b.rotation = (a.mul e).rotation.neg) := by
  let a' : Motion := ⟨a, ha⟩
  let b' : Motion := ⟨b, hb⟩
  let e' : Motion := ⟨e, he⟩
  have key : ∀ d : Motion, (d.1.translation.norm ^ 2 = 0 ∧ getAngle d.1 ^ 2 = 0) ↔ d = 1 ∨ d = turn := by
    intro d
    constructor
    · rintro ⟨h1, h2⟩
      rw [norm_sq] at h1
      have hx : d.1.translation.x = 0 := by nlinarith [sq_nonneg d.1.translation.x, sq_nonneg d.1.translation.y, sq_nonneg d.1.translation.z]
      have hy : d.1.translation.y = 0 := by nlinarith [sq_nonneg d.1.translation.x, sq_nonneg d.1.translation.y, sq_nonneg d.1.translation.z]
      have hz : d.1.translation.z = 0 := by nlinarith [sq_nonneg d.1.translation.x, sq_nonneg d.1.translation.y, sq_nonneg d.1.translation.z]
      have ht : d.1.translation = ⟨0, 0, 0⟩ := by ext <;> assumption
      rcases angle_zero d.2 (pow_eq_zero_iff two_ne_zero |>.1 h2) with h | h
      · left; exact Subtype.ext (Rigid3.ext ht h)
      · right; exact Subtype.ext (Rigid3.ext ht h)
    · have h0 : V3.norm ⟨0, 0, 0⟩ = 0 := by unfold V3.norm; simp
      have h1 : Complex.arg ⟨1, 0⟩ = 0 := by
        rw [Complex.arg_eq_zero_iff]
        simp
      rintro (rfl | rfl)
      · show V3.norm ⟨0, 0, 0⟩ ^ 2 = 0 ∧ getAngle ⟨⟨0, 0, 0⟩, ⟨1, 0, 0, 0⟩⟩ ^ 2 = 0
        unfold getAngle
        simp [h0, h1]
      · show V3.norm ⟨0, 0, 0⟩ ^ 2 = 0 ∧ getAngle ⟨⟨0, 0, 0⟩, ⟨-1, 0, 0, 0⟩⟩ ^ 2 = 0
        unfold getAngle
        simp [h0, h1]
  have e1 : ((computeError a b e).translationalSquared = 0 ∧ (computeError a b e).rotationalSquared = 0) ↔ ((a'⁻¹ * b') * e'⁻¹ = 1 ∨ (a'⁻¹ * b') * e'⁻¹ = turn) := by
    rw [← key]
    unfold computeError
    simp only
    rw [error_sq]
    rfl
  rw [e1]
  have e2 : (a'⁻¹ * b') * e'⁻¹ = 1 ↔ b' = a' * e' := by
    constructor
    · intro h
      have : b' = a' * ((a'⁻¹ * b') * e'⁻¹) * e' := by group
      rw [this, h]; group
    · intro h; rw [h]; group
  have e3 : (a'⁻¹ * b') * e'⁻¹ = turn ↔ b' = a' * e' * turn := by
    constructor
    · intro h
      have : b' = a' * ((a'⁻¹ * b') * e'⁻¹) * e' := by group
      rw [this, h, mul_assoc, turn_mul, ← mul_assoc]
    · intro h
      rw [h, mul_assoc, mul_assoc a', ← turn_mul, ← mul_assoc a'⁻¹]
      group
  rw [e2, e3]
  have e4 : b' = a' * e' ↔ b.translation = (a.mul e).translation ∧ b.rotation = (a.mul e).rotation := by
    constructor
    · intro h
      have : b = a.mul e := congrArg Subtype.val h
      rw [this]; exact ⟨rfl, rfl⟩
    · rintro ⟨h1, h2⟩
      exact Subtype.ext (Rigid3.ext h1 h2)
  have e5 : b' = a' * e' * turn ↔ b.translation = (a.mul e).translation ∧ b.rotation = (a.mul e).rotation.neg := by
    constructor
    · intro h
      have : b = (a' * e' * turn).1 := congrArg Subtype.val h
      rw [this, mul_turn]; exact ⟨rfl, rfl⟩
    · rintro ⟨h1, h2⟩
      apply Subtype.ext
      rw [mul_turn]
      exact Rigid3.ext h1 h2
  rw [e4, e5, ← and_or_left]

/-! ### Mean and standard deviation -/

theorem foldl_sum (f : ℝ → ℝ) : ∀ (l : List ℝ) (a : ℝ), l.foldl (fun s v => s + f v) a = a + (l.map f).sum
  | [], a => by simp
  | x :: l, a => by
    rw [List.foldl_cons, foldl_sum f l, List.map_cons, List.sum_cons]; ring

theorem sum_differences (m : ℝ) : ∀ l : List ℝ, (l.map fun v => (v - m) ^ 2).sum = (l.map fun v => v ^ 2).sum - 2 * m * l.sum + l.length * m ^ 2
  | [] => by simp
  | x :: l => by
    simp only [List.map_cons, List.sum_cons, List.length_cons, Nat.cast_add, Nat.cast_one]
    rw [sum_differences m l]; ring

theorem sum_pairs (l : List ℝ) : ∀ k : List ℝ, (k.map fun a => (l.map fun b => (a - b) ^ 2).sum).sum =
    l.length * (k.map fun v => v ^ 2).sum - 2 * k.sum * l.sum + k.length * (l.map fun v => v ^ 2).sum
  | [] => by simp
  | x :: k => by
    simp only [List.map_cons, List.sum_cons, List.length_cons, Nat.cast_add, Nat.cast_one]
    have h : (l.map fun b => (x - b) ^ 2).sum = (l.map fun b => (b - x) ^ 2).sum := by
      congr 1
      exact List.map_congr_left fun b _ => by ring
    rw [sum_pairs l k, h, sum_differences]; ring

theorem meanAndStdDev_some (l : List ℝ) : (∃ r, meanAndStdDev l = some r) ↔ 2 ≤ l.length := by
  unfold meanAndStdDev
  split
  · rename_i h; exact ⟨fun _ => h, fun _ => ⟨_, rfl⟩⟩
  · rename_i h
    constructor
    · rintro ⟨r, h'⟩; cases h'
    · intro h'; exact absurd h' h

/-- **Mean and standard deviation**: the mean times the number of values is their sum; the square of the deviation is half the mean of the squared
differences over all pairs of values. -/
theorem meanAndStdDev_spec {l : List ℝ} {mean dev : ℝ} (h : meanAndStdDev l = some (mean, dev)) :
    mean * l.length = l.sum ∧ 0 ≤ dev ∧ dev ^ 2 * (2 * (l.length * (l.length - 1))) = (l.map fun a => (l.map fun b => (a - b) ^ 2).sum).sum := by
  have hl : 2 ≤ l.length := (meanAndStdDev_some l).1 ⟨_, h⟩
  unfold meanAndStdDev at h
  rw [if_pos hl] at h
  simp only [Option.some.injEq, Prod.mk.injEq] at h
  obtain ⟨h1, h2⟩ := h
  rw [h1, foldl_sum (fun v => (v - mean) ^ 2), zero_add] at h2
  rw [foldl_sum (fun v => v), zero_add, List.map_id'] at h1
  have hn : (2 : ℝ) ≤ l.length := by exact_mod_cast hl
  have hm : mean * l.length = l.sum := by
    rw [← h1]
    field_simp
  have hs : 0 ≤ (l.map fun v => (v - mean) ^ 2).sum := List.sum_nonneg fun x hx => by
    obtain ⟨y, _, rfl⟩ := List.mem_map.1 hx
    positivity
  refine ⟨hm, by rw [← h2]; exact Real.sqrt_nonneg _, ?_⟩
  rw [← h2, Real.sq_sqrt (div_nonneg hs (by linarith)), sum_pairs, sum_differences, ← hm]
  have hne : (l.length : ℝ) - 1 ≠ 0 := by linarith
  field_simp
  ring

/-- **The mean is between the values.** -/
theorem mean_between {l : List ℝ} {mean dev lo hi : ℝ} (h : meanAndStdDev l = some (mean, dev)) (hb : ∀ v ∈ l, lo ≤ v ∧ v ≤ hi) : lo ≤ mean ∧ mean ≤ hi := by
  have hl : 2 ≤ l.length := (meanAndStdDev_some l).1 ⟨_, h⟩
  have hn : (2 : ℝ) ≤ l.length := by exact_mod_cast hl
  obtain ⟨h1, _, _⟩ := meanAndStdDev_spec h
  have h2 : ∀ k : List ℝ, (∀ v ∈ k, lo ≤ v ∧ v ≤ hi) → k.length * lo ≤ k.sum ∧ k.sum ≤ k.length * hi := by
    intro k
    induction k with
    | nil => intro _; simp
    | cons x k ih =>
      intro hk
      obtain ⟨i1, i2⟩ := ih fun v hv => hk v (List.mem_cons_of_mem _ hv)
      obtain ⟨j1, j2⟩ := hk x (by simp)
      simp only [List.length_cons, List.sum_cons, Nat.cast_add, Nat.cast_one]
      constructor <;> linarith
  obtain ⟨h3, h4⟩ := h2 l hb
  constructor <;> nlinarith

/-- **The deviation is zero exactly if all values are the same.** -/
theorem dev_zero {l : List ℝ} {mean dev : ℝ} (h : meanAndStdDev l = some (mean, dev)) : dev = 0 ↔ ∀ a ∈ l, ∀ b ∈ l, a = b := by
  have hl : 2 ≤ l.length := (meanAndStdDev_some l).1 ⟨_, h⟩
  have hn : (2 : ℝ) ≤ l.length := by exact_mod_cast hl
  obtain ⟨_, _, h3⟩ := meanAndStdDev_spec h
  constructor
  · intro h0 a ha b hb
    rw [h0] at h3
    have nn : ∀ x ∈ l.map fun a => (l.map fun b => (a - b) ^ 2).sum, 0 ≤ x := by
      intro x hx
      obtain ⟨y, _, rfl⟩ := List.mem_map.1 hx
      exact List.sum_nonneg fun x hx => by
        obtain ⟨z, _, rfl⟩ := List.mem_map.1 hx
        positivity
    have i1 := List.single_le_sum nn _ (List.mem_map.2 ⟨a, ha, rfl⟩)
    have i2 := List.single_le_sum (l := l.map fun b => (a - b) ^ 2) (fun x hx => by
        obtain ⟨z, _, rfl⟩ := List.mem_map.1 hx
        positivity) _ (List.mem_map.2 ⟨b, hb, rfl⟩)
    have : (a - b) ^ 2 ≤ 0 := by linarith
    have : a - b = 0 := by nlinarith
    linarith
  · intro heq
    have : (l.map fun a => (l.map fun b => (a - b) ^ 2).sum).sum = 0 := by
      apply List.sum_eq_zero
      intro x hx
      obtain ⟨y, hy, rfl⟩ := List.mem_map.1 hx
      apply List.sum_eq_zero
      intro x hx
      obtain ⟨z, hz, rfl⟩ := List.mem_map.1 hx
      rw [heq y hy z hz]; simp
    rw [this] at h3
    have hp : (0 : ℝ) < 2 * (l.length * (l.length - 1)) := by nlinarith
    have : dev ^ 2 = 0 := by
      rcases mul_eq_zero.1 h3 with h | h
      · exact h
      · linarith
    exact pow_eq_zero_iff two_ne_zero |>.1 this

/-- **The order of the values does not matter.** -/
theorem meanAndStdDev_perm {l l' : List ℝ} (h : l.Perm l') : meanAndStdDev l = meanAndStdDev l' := by
  unfold meanAndStdDev
  simp only [foldl_sum (fun v => v), foldl_sum (fun v => (v - _) ^ 2), List.map_id']
  rw [h.length_eq, h.sum_eq]
  simp only [(h.map _).sum_eq]

/-- **Statistics need two relations.** -/
theorem statistics_some (es : List Error) : (∃ s, statistics es = some s) ↔ 2 ≤ es.length := by
  constructor
  · rintro ⟨s, h⟩
    simp only [statistics, Option.bind_eq_bind, Option.bind_eq_some_iff] at h
    obtain ⟨a, h1, _⟩ := h
    have := (meanAndStdDev_some _).1 ⟨a, h1⟩
    simpa using this
  · intro h
    obtain ⟨a, h1⟩ := (meanAndStdDev_some (es.map fun e => √e.translationalSquared)).2 (by simpa using h)
    obtain ⟨b, h2⟩ := (meanAndStdDev_some (es.map fun e => e.translationalSquared)).2 (by simpa using h)
    obtain ⟨c, h3⟩ := (meanAndStdDev_some (es.map fun e => radToDeg √e.rotationalSquared)).2 (by simpa using h)
    obtain ⟨d, h4⟩ := (meanAndStdDev_some (es.map fun e => radToDeg √e.rotationalSquared ^ 2)).2 (by simpa using h)
    refine ⟨(a, b, c, d), ?_⟩
    simp only [statistics, Option.bind_eq_bind]
    rw [h1, Option.bind_some, h2, Option.bind_some, h3, Option.bind_some, h4, Option.bind_some]

/-- **The mean of the squares**: it is the square of the mean plus a part of the squared deviation; so it is never less than the square of the mean. -/
theorem mean_squares {l : List ℝ} {mean dev mean2 dev2 : ℝ} (h : meanAndStdDev l = some (mean, dev)) (h2 : meanAndStdDev (l.map fun v => v ^ 2) = some (mean2, dev2)) :
    mean2 = mean ^ 2 + dev ^ 2 * ((l.length - 1) / l.length) := by
  have hl : 2 ≤ l.length := (meanAndStdDev_some l).1 ⟨_, h⟩
  have hn : (2 : ℝ) ≤ l.length := by exact_mod_cast hl
  obtain ⟨k1, _, k3⟩ := meanAndStdDev_spec h
  obtain ⟨j1, _, _⟩ := meanAndStdDev_spec h2
  rw [List.length_map] at j1
  rw [sum_pairs, ← k1, ← j1] at k3
  have hne : (l.length : ℝ) ≠ 0 := by linarith
  field_simp
  have : (2 * (l.length : ℝ)) * (mean2 * l.length) = (2 * (l.length : ℝ)) * (mean ^ 2 * l.length + dev ^ 2 * (l.length - 1)) := by linarith
  exact mul_left_cancel₀ (by positivity) this

/-! ### All errors -/

/-- One relation and its error. -/
def ErrorOf (eps : ℝ) (b : Buffer) (r : Relation) (e : Error) : Prop :=
  ∃ p q, lookupTransform eps b r.time1 = some p ∧ lookupTransform eps b r.time2 = some q ∧ e = computeError p q r.expected

/-- **There is one error for each relation, in the order of the relations.** -/
theorem errors_iff (eps : ℝ) (b : Buffer) : ∀ (rels : List Relation) (es : List Error), errors eps b rels = some es ↔ List.Forall₂ (ErrorOf eps b) rels es
  | [], es => by
    constructor
    · intro h
      have : es = [] := by simpa [errors] using h.symm
      rw [this]; exact List.Forall₂.nil
    · intro h
      cases h
      rfl
  | r :: rels, es => by
    simp only [errors, Option.bind_eq_bind, Option.bind_eq_some_iff, Option.some.injEq]
    constructor
    · rintro ⟨p, h1, q, h2, rest, h3, rfl⟩
      exact List.Forall₂.cons ⟨p, q, h1, h2, rfl⟩ ((errors_iff eps b rels rest).1 h3)
    · intro h
      cases h with
      | cons h1 h2 =>
        obtain ⟨p, q, k1, k2, rfl⟩ := h1
        exact ⟨p, k1, q, k2, _, (errors_iff eps b rels _).2 h2, rfl⟩

theorem errors_isSome {eps : ℝ} (he : 0 ≤ eps) {b : Buffer} (hb : InOrder b.items) (hn : b.items ≠ []) : ∀ rels, ∃ es, errors eps b rels = some es
  | [] => ⟨[], rfl⟩
  | r :: rels => by
    obtain ⟨es, h⟩ := errors_isSome he hb hn rels
    obtain ⟨p, h1⟩ := (lookupTransform_isSome he hb r.time1).2 hn
    obtain ⟨q, h2⟩ := (lookupTransform_isSome he hb r.time2).2 hn
    refine ⟨computeError p q r.expected :: es, ?_⟩
    simp only [errors, Option.bind_eq_bind]
    rw [h1, Option.bind_some, h2, Option.bind_some, h, Option.bind_some]

/-- **When metrics are computed**: there is a first trajectory with nodes in the order of time, and there are at least two relations. -/
theorem run_isSome {eps : ℝ} (he : 0 ≤ eps) (g : PoseGraph) (truth : List Relation) : (∃ o, run eps g truth = some o) ↔
    ∃ t, g.trajectories[0]? = some t ∧ t.nodes ≠ [] ∧ t.nodes.Pairwise (fun x y => x.time ≤ y.time) ∧ 2 ≤ truth.length := by
  constructor
  · rintro ⟨o, h⟩
    simp only [run, Option.bind_eq_bind, Option.bind_eq_some_iff] at h
    obtain ⟨t, h1, b, h2, es, h3, s, h4, _⟩ := h
    obtain ⟨k1, k2⟩ := (bufferOf_iff t b).1 h2
    have k3 := (errors_iff eps b truth es).1 h3
    have k4 := (statistics_some es).1 ⟨s, h4⟩
    rw [← k3.length_eq] at k4
    refine ⟨t, h1, ?_, k1, k4⟩
    intro hn
    cases truth with
    | nil => simp at k4
    | cons r rels =>
      cases k3 with
      | cons h5 _ =>
        obtain ⟨p, q, h6, _, _⟩ := h5
        have : b.items = [] := by rw [k2, hn]; rfl
        unfold lookupTransform at h6
        rw [this] at h6
        cases h6
  · rintro ⟨t, h1, h2, h3, h4⟩
    have hbuf := (bufferOf_iff t ⟨stamps t.nodes, t.nodes.length⟩).2 ⟨h3, rfl⟩
    have hin : InOrder (stamps t.nodes) := by unfold InOrder stamps; rw [List.pairwise_map]; exact h3
    obtain ⟨es, h5⟩ := errors_isSome (b := ⟨stamps t.nodes, t.nodes.length⟩) he hin (by simpa [stamps] using h2) truth
    have h6 := ((errors_iff _ _ _ _).1 h5).length_eq
    obtain ⟨s, h7⟩ := (statistics_some es).2 (by omega)
    refine ⟨(es, s), ?_⟩
    simp only [run, Option.bind_eq_bind]
    rw [h1, Option.bind_some, hbuf, Option.bind_some, h5, Option.bind_some, h7, Option.bind_some]

/-- **The means that are written**: the translational ones are not negative, the mean of the angles is between 0 and 180 degrees. -/
theorem run_means {eps : ℝ} {g : PoseGraph} {truth : List Relation} {es : List Error} {a b c d : ℝ × ℝ} (h : run eps g truth = some (es, a, b, c, d)) :
    0 ≤ a.1 ∧ a.1 ^ 2 ≤ b.1 ∧ 0 ≤ c.1 ∧ c.1 ≤ 180 ∧ c.1 ^ 2 ≤ d.1 := by
  simp only [run, Option.bind_eq_bind, Option.bind_eq_some_iff, Option.some.injEq, Prod.mk.injEq] at h
  obtain ⟨t, _, buf, _, es', h3, s, h4, rfl, rfl⟩ := h
  have h5 := (errors_iff _ _ _ _).1 h3
  have hall : ∀ e ∈ es', 0 ≤ e.translationalSquared ∧ 0 ≤ √e.rotationalSquared ∧ √e.rotationalSquared ≤ Real.pi := by
    intro e he
    obtain ⟨r, _, p, q, _, _, rfl⟩ := forall₂_mem h5 he
    unfold computeError
    simp only
    rw [Real.sqrt_sq (angle_mem _).1]
    exact ⟨by rw [error_sq]; positivity, angle_mem _⟩
  simp only [statistics, Option.bind_eq_bind, Option.bind_eq_some_iff, Option.some.injEq, Prod.mk.injEq] at h4
  obtain ⟨a', k1, b', k2, c', k3, d', k4, rfl, rfl, rfl, rfl⟩ := h4
  have j2 : (es'.map fun e => e.translationalSquared) = (es'.map fun e => √e.translationalSquared).map fun v => v ^ 2 := by
    rw [List.map_map]
    exact List.map_congr_left fun e he => by simp only [Function.comp]; rw [Real.sq_sqrt (hall e he).1]
  have j4 : (es'.map fun e => radToDeg √e.rotationalSquared ^ 2) = (es'.map fun e => radToDeg √e.rotationalSquared).map fun v => v ^ 2 := by
    rw [List.map_map]; rfl
  rw [j2] at k2
  rw [j4] at k4
  have part : ∀ {l : List ℝ} {m : ℝ × ℝ}, meanAndStdDev l = some m → 0 ≤ m.2 ^ 2 * (((l.length : ℝ) - 1) / l.length) := by
    intro l m hm
    have hl : 2 ≤ l.length := (meanAndStdDev_some l).1 ⟨_, hm⟩
    have hn : (2 : ℝ) ≤ l.length := by exact_mod_cast hl
    exact mul_nonneg (sq_nonneg _) (div_nonneg (by linarith) (by linarith))
  have i1 := mean_squares k1 k2
  have i2 := mean_squares k3 k4
  have i3 := part k1
  have i4 := part k3
  have pi := Real.pi_pos
  refine ⟨?_, by linarith, ?_, ?_, by linarith⟩
  · obtain ⟨hi, hhi⟩ : ∃ hi, ∀ v ∈ (es'.map fun e => √e.translationalSquared), v ≤ hi := ⟨(es'.map fun e => √e.translationalSquared).sum, fun v hv =>
      List.single_le_sum (fun x hx => by obtain ⟨e, _, rfl⟩ := List.mem_map.1 hx; exact Real.sqrt_nonneg _) v hv⟩
    exact (mean_between k1 fun v hv => ⟨by obtain ⟨e, _, rfl⟩ := List.mem_map.1 hv; exact Real.sqrt_nonneg _, hhi v hv⟩).1
  all_goals
    have hm := mean_between (lo := 0) (hi := 180) k3 fun v hv => by
      obtain ⟨e, he, rfl⟩ := List.mem_map.1 hv
      obtain ⟨_, l1, l2⟩ := hall e he
      unfold radToDeg
      refine ⟨by positivity, ?_⟩
      rw [div_le_iff₀ pi]
      linarith
    first | exact hm.1 | exact hm.2

/-- **Generated relations have small errors on the map they come from**: if no two nodes have the same time, the errors computed for the generated relations
on the same pose graph are within the limits they were generated with. -/
theorem generated_errors {eps : ℝ} (he : 0 ≤ eps) {g : PoseGraph} (hg : ProperGraph g) {minCovered meters radians : ℝ} {rels : List Relation}
    (h : generate g minCovered meters radians = some rels) {t : Trajectory} (ht : g.trajectories[0]? = some t) (hs : t.nodes.Pairwise fun x y => x.time < y.time) :
    ∃ b es, bufferOf t = some b ∧ errors eps b rels = some es ∧ es.length = rels.length ∧
      ∀ e ∈ es, √e.translationalSquared ≤ meters ∧ √e.rotationalSquared ≤ radians := by
  obtain ⟨t', reps, h1, _, h3⟩ := generate_spec hg h
  rw [ht] at h1
  obtain rfl := Option.some.inj h1
  have hp := hg.trajectories t (List.mem_of_getElem? ht)
  have hle : t.nodes.Pairwise fun x y => x.time ≤ y.time := hs.imp fun h => le_of_lt h
  have hn : t.nodes ≠ [] := by
    obtain ⟨t', _, k1, k2, _⟩ := (generate_isSome hg _ _ _).1 ⟨rels, h⟩
    rw [ht] at k1
    obtain rfl := Option.some.inj k1
    exact k2
  have hin : InOrder (stamps t.nodes) := by unfold InOrder stamps; rw [List.pairwise_map]; exact hle
  obtain ⟨es, h5⟩ := errors_isSome (b := ⟨stamps t.nodes, t.nodes.length⟩) he hin (by simpa [stamps] using hn) rels
  have h6 := (errors_iff _ _ _ _).1 h5
  refine ⟨_, es, (bufferOf_iff t _).2 ⟨hle, rfl⟩, h5, h6.length_eq.symm, fun e hem => ?_⟩
  obtain ⟨r, hr, p, q, k1, k2, rfl⟩ := forall₂_mem h6 hem
  obtain ⟨c, hc, _, _, _, k, i, j, first, second, submap, _, _, _, e4, e5, e6, _, e8, e9, e10, e11, _, e13, e14⟩ := forall₂_mem h3 hr
  have node : ∀ (i : Nat) (n : Node), t.nodes[i]? = some n → lookupTransform eps ⟨stamps t.nodes, t.nodes.length⟩ n.time = some n.pose := by
    intro i n hi
    obtain ⟨hi', e⟩ := List.getElem?_eq_some_iff.1 hi
    have hsplit : t.nodes = t.nodes.take i ++ n :: t.nodes.drop (i + 1) := by
      rw [← e, ← List.drop_eq_getElem_cons hi', List.take_append_drop]
    refine lookupTransform_node (b := ⟨stamps t.nodes, t.nodes.length⟩) he hin (x := ⟨n.time, n.pose⟩) (front := stamps (t.nodes.take i)) (rest := stamps (t.nodes.drop (i + 1))) ?_ ?_
    · show stamps t.nodes = _
      conv_lhs => rw [hsplit]
      simp [stamps]
    · intro y hy
      obtain ⟨z, hz, rfl⟩ := List.mem_map.1 hy
      rw [hsplit] at hs
      have := (List.pairwise_append.1 hs).2.2 z hz n (by simp)
      simp only
      omega
  rw [e10, node i first e4, Option.some.injEq] at k1
  rw [e11, node j second e5, Option.some.injEq] at k2
  obtain ⟨j1, j2⟩ := computeError_spec (hp.nodes first (List.mem_of_getElem? e4)) (hp.nodes second (List.mem_of_getElem? e5)) e13
  rw [← k1, ← k2, j1, j2, e14]
  exact ⟨e8, e9⟩

/-! ### Examples -/

/-- A pose on a line. -/
def onLine (x : ℝ) : Rigid3 := ⟨⟨x, 0, 0⟩, ⟨1, 0, 0, 0⟩⟩

theorem onLine_proper (x : ℝ) : (onLine x).Proper := by simp [onLine, Rigid3.Proper, Quat.Unit]

theorem onLine_mul (x y : ℝ) : (onLine x).mul (onLine y) = onLine (x + y) := by
  unfold onLine Rigid3.mul Quat.rotate cross Quat.normalized Quat.mul Quat.normSq
  ext <;> norm_num
  ring

theorem onLine_inverse (x : ℝ) : (onLine x).inverse = onLine (-x) := by
  unfold onLine Rigid3.inverse Quat.rotate Quat.conjugate cross
  ext <;> norm_num

theorem onLine_norm (x : ℝ) : (onLine x).translation.norm = |x| := by
  unfold onLine V3.norm
  rw [← Real.sqrt_sq_eq_abs]
  congr 1
  simp
  try ring

theorem onLine_angle (x : ℝ) : getAngle (onLine x) = 0 := by
  have h0 : V3.norm ⟨0, 0, 0⟩ = 0 := by unfold V3.norm; simp
  have h1 : Complex.arg ⟨1, 0⟩ = 0 := by
    rw [Complex.arg_eq_zero_iff]
    simp
  unfold getAngle onLine
  simp [h0, h1]

/-- A trajectory that goes away and comes back, with a loop closure to the first submap and a wrong one. -/
noncomputable def back (time : Int) : PoseGraph :=
  ⟨[⟨[⟨0, onLine 0⟩, ⟨10, onLine 3⟩, ⟨time, onLine (1 / 4)⟩], [onLine 0, onLine 0]⟩],
    [⟨0, 0, 0, 0, onLine 0, true⟩, ⟨0, 1, 0, 1, onLine 3, true⟩, ⟨0, 1, 0, 2, onLine 0, true⟩, ⟨0, 0, 0, 2, onLine 0, false⟩, ⟨0, 0, 0, 2, onLine 3, false⟩]⟩

theorem back_proper (time : Int) : ProperGraph (back time) := by
  constructor
  · intro t ht
    simp only [back, List.mem_singleton] at ht
    subst ht
    constructor
    · intro n hn
      simp only [List.mem_cons, List.not_mem_nil, or_false] at hn
      rcases hn with rfl | rfl | rfl <;> exact onLine_proper _
    · intro n hn
      simp only [List.mem_cons, List.not_mem_nil, or_false] at hn
      rcases hn with rfl | rfl <;> exact onLine_proper _
  · intro c hc
    simp only [back, List.mem_cons, List.not_mem_nil, or_false] at hc
    rcases hc with rfl | rfl | rfl | rfl | rfl <;> exact onLine_proper _

/-- One relation, from the node of the next submap. -/
theorem back_generate (time : Int) : generate (back time) 2 1 1 = some [⟨10, time, onLine (-3), 11 / 4⟩] := by
  have hcov : coveredDistance ⟨[⟨0, onLine 0⟩, ⟨10, onLine 3⟩, ⟨time, onLine (1 / 4)⟩], [onLine 0, onLine 0]⟩ = some [0, 3, 23 / 4] := by
    simp only [coveredDistance, coveredLoop, onLine_inverse, onLine_mul, onLine_norm]
    norm_num
  have habs : |(23 / 4 : ℝ) - 3| = 11 / 4 := by norm_num
  simp only [generate, back, List.getElem?_cons_zero, Option.bind_eq_bind, Option.bind_some, hcov]
  have htwo : Int.toNat 2 = 2 := rfl
  norm_num [htwo, representatives, relations, relation, at?, onLine_inverse, onLine_mul, onLine_norm, onLine_angle, habs]

/-- **Two nodes with the same time**: the pose of the first one is used, and the error of a relation that was generated from the map is beyond the limit. -/
theorem same_time_differs : ∃ (g : PoseGraph) (t : Trajectory) (rels : List Relation) (b : Buffer) (es : List Error), ProperGraph g ∧ g.trajectories[0]? = some t ∧
    t.nodes.Pairwise (fun x y => x.time ≤ y.time) ∧ generate g 2 1 1 = some rels ∧ bufferOf t = some b ∧ errors 0 b rels = some es ∧ ∃ e ∈ es, 1 < √e.translationalSquared := by
  refine ⟨back 10, _, _, ⟨stamps [⟨0, onLine 0⟩, ⟨10, onLine 3⟩, ⟨10, onLine (1 / 4)⟩], 3⟩, [computeError (onLine 3) (onLine 3) (onLine (-3))], back_proper 10, rfl, by simp, back_generate 10, (bufferOf_iff _ _).2 ⟨by simp, rfl⟩, ?_, _, List.mem_singleton.2 rfl, ?_⟩
  · rw [errors_iff]
    have h : lookupTransform 0 ⟨stamps [⟨0, onLine 0⟩, ⟨10, onLine 3⟩, ⟨10, onLine (1 / 4)⟩], 3⟩ 10 = some (onLine 3) :=
      lookupTransform_node (b := ⟨stamps [⟨0, onLine 0⟩, ⟨10, onLine 3⟩, ⟨10, onLine (1 / 4)⟩], 3⟩) (le_refl 0) (by simp [InOrder, stamps]) (x := ⟨10, onLine 3⟩)
        (front := [⟨0, onLine 0⟩]) (rest := [⟨10, onLine (1 / 4)⟩]) rfl (by simp)
    exact List.Forall₂.cons ⟨_, _, h, h, rfl⟩ List.Forall₂.nil
  · rw [(computeError_spec (onLine_proper _) (onLine_proper _) (onLine_proper _)).1]
    simp only [onLine_mul, onLine_inverse]
    have : ∀ x y : ℝ, (onLine x).apply (onLine y).translation = ⟨x + y, 0, 0⟩ := by
      intro x y
      unfold onLine Rigid3.apply Quat.rotate cross
      ext <;> simp
      try ring
    rw [this, this]
    have h2 : ∀ x y : ℝ, gap ⟨x, 0, 0⟩ ⟨y, 0, 0⟩ = |y - x| := by
      intro x y
      have := onLine_norm (y - x)
      unfold gap
      simpa [onLine] using this
    rw [h2]
    norm_num

/-- With different times the errors are within the limits. -/
example : ∃ b es, bufferOf ⟨[⟨0, onLine 0⟩, ⟨10, onLine 3⟩, ⟨20, onLine (1 / 4)⟩], [onLine 0, onLine 0]⟩ = some b ∧ errors 0 b [⟨10, 20, onLine (-3), 11 / 4⟩] = some es ∧
    es.length = 1 ∧ ∀ e ∈ es, √e.translationalSquared ≤ 1 ∧ √e.rotationalSquared ≤ 1 :=
  generated_errors (le_refl 0) (back_proper 20) (back_generate 20) rfl (by simp)

example : meanAndStdDev [1, 3] = some (2, √2) := by norm_num [meanAndStdDev]

example : meanAndStdDev [1] = none := by norm_num [meanAndStdDev]

/-- A node before the first gives the first pose. -/
example : lookupTransform 0 ⟨[⟨5, onLine 1⟩, ⟨10, onLine 3⟩], 2⟩ 2 = some (onLine 1) := by
  rw [lookupTransform_spec (by simp [InOrder]) rfl rfl]
  rcases lookup_spec (le_refl 0) (b := ⟨[⟨5, onLine 1⟩, ⟨10, onLine 3⟩], 2⟩) (by simp [InOrder]) (time := 5) with ⟨h, _⟩ | ⟨front, x, rest, h1, h2, h3, h4⟩ | ⟨front, x, y, rest, q, h1, h2, h3, _, _⟩
  · exact absurd ⟨⟨_, List.mem_cons_self, le_refl _⟩, _, List.mem_cons_self, le_refl _⟩ h
  · have e : nearest 5 10 2 = 5 := rfl
    show lookup 0 _ (nearest 5 10 2) = _
    rw [e, h4]
    cases front with
    | nil =>
      simp only [List.nil_append, List.cons.injEq] at h1
      rw [← h1.1]
    | cons y l =>
      simp only [List.cons_append, List.cons.injEq] at h1
      exact absurd (by rw [← h1.1]) (h3 y (by simp))
  · exfalso
    cases front with
    | nil =>
      simp only [List.nil_append, List.cons.injEq] at h1
      rw [← h1.1] at h2
      exact absurd h2 (by decide)
    | cons z l =>
      cases l with
      | nil => simp at h1
      | cons z' l => simp at h1

end Verif.GroundTruth
