import Verif.GroundTruth
import Verif.Props.Rigid
import Verif.Props.InterpolationBuffer
import Mathlib.Algebra.BigOperators.Group.List.Basic
import Mathlib.Algebra.Order.BigOperators.Group.List
import Mathlib.Tactic.Group
import Mathlib.Tactic.Linarith
import Mathlib.Tactic.Ring
import Mathlib.Tactic.NormNum
import Mathlib.Tactic.Push
import Mathlib.Tactic.LinearCombination
import Mathlib.Tactic.Positivity

/-!
# Ground truth from loop closures: theorems
-/

namespace Verif.GroundTruth

open Rigid InterpolationBuffer

/-! ### Representative nodes -/

/-- The representatives after those in `acc`: for each number there is a first constraint to the submap after it, and no constraint before that one is to a
later submap. -/
structure Represented (acc : List Int) (cs : List Constraint) (v : List Int) : Prop where
  prefix_ : acc <+: v
  bound : ∀ c ∈ cs, c.intra = true → c.submap ≤ v.length
  first : ∀ k : Nat, acc.length ≤ k → k < v.length → ∃ (a : List Constraint) (c : Constraint) (b : List Constraint),
    cs = a ++ c :: b ∧ c.intra = true ∧ c.submap = (k : Int) + 1 ∧ v[k]? = some c.node ∧ ∀ x ∈ a, x.intra = true → x.submap ≤ (k : Int)

theorem representatives_acc (cs : List Constraint) : ∀ (acc v : List Int), representatives acc cs = some v ↔
    (∀ c ∈ cs, c.intra = true → c.submapTrajectory = 0 ∧ c.nodeTrajectory = 0) ∧ Represented acc cs v := by
  induction cs with
  | nil =>
    intro acc v
    unfold representatives
    rw [Option.some.injEq]
    constructor
    · rintro rfl
      exact ⟨by simp, List.prefix_refl _, by simp, fun k h1 h2 => by omega⟩
    · rintro ⟨_, h⟩
      have hlen : v.length ≤ acc.length := by
        by_contra hc
        obtain ⟨a, c, b, e, _⟩ := h.first acc.length (le_refl _) (by omega)
        simp at e
      exact h.prefix_.eq_of_length_le hlen
  | cons c cs ih =>
    intro acc v
    -- constraints that are passed over do not matter
    have skip : (c.intra = true → c.submap ≤ acc.length) → (Represented acc (c :: cs) v ↔ Represented acc cs v) := by
      intro hc
      constructor
      · intro h
        refine ⟨h.prefix_, fun x hx => h.bound x (List.mem_cons_of_mem _ hx), fun k h1 h2 => ?_⟩
        obtain ⟨a, d, b, e, i, s, n, l⟩ := h.first k h1 h2
        cases a with
        | nil =>
          rw [List.nil_append, List.cons.injEq] at e
          obtain ⟨rfl, rfl⟩ := e
          have := hc i
          omega
        | cons x a =>
          rw [List.cons_append, List.cons.injEq] at e
          obtain ⟨rfl, rfl⟩ := e
          exact ⟨a, d, b, rfl, i, s, n, fun y hy => l y (List.mem_cons_of_mem _ hy)⟩
      · intro h
        refine ⟨h.prefix_, fun x hx hi => ?_, fun k h1 h2 => ?_⟩
        · rcases List.mem_cons.1 hx with rfl | hx
          · have := hc hi
            have := h.prefix_.length_le
            omega
          · exact h.bound x hx hi
        · obtain ⟨a, d, b, rfl, i, s, n, l⟩ := h.first k h1 h2
          refine ⟨c :: a, d, b, rfl, i, s, n, fun y hy hi => ?_⟩
          rcases List.mem_cons.1 hy with rfl | hy
          · have := hc hi
            omega
          · exact l y hy hi
    have split : (∀ x ∈ c :: cs, x.intra = true → x.submapTrajectory = 0 ∧ x.nodeTrajectory = 0) ↔
        (c.intra = true → c.submapTrajectory = 0 ∧ c.nodeTrajectory = 0) ∧ ∀ x ∈ cs, x.intra = true → x.submapTrajectory = 0 ∧ x.nodeTrajectory = 0 := by
      rw [List.forall_mem_cons]
    unfold representatives
    rw [split]
    by_cases hi : c.intra = true
    · rw [if_pos hi]
      by_cases ht : c.submapTrajectory = 0 ∧ c.nodeTrajectory = 0
      · rw [if_pos ht]
        by_cases h1 : c.submap ≤ acc.length
        · rw [if_pos h1, ih, skip fun _ => h1]
          exact ⟨fun ⟨h, h'⟩ => ⟨⟨fun _ => ht, h⟩, h'⟩, fun ⟨⟨_, h⟩, h'⟩ => ⟨h, h'⟩⟩
        · rw [if_neg h1]
          by_cases h2 : c.submap = acc.length + 1
          · rw [if_pos h2, ih]
            have : Represented (acc ++ [c.node]) cs v ↔ Represented acc (c :: cs) v := by
              constructor
              · intro h
                have hlen := h.prefix_.length_le
                rw [List.length_append, List.length_singleton] at hlen
                refine ⟨(List.prefix_append _ _).trans h.prefix_, fun x hx hxi => ?_, fun k k1 k2 => ?_⟩
                · rcases List.mem_cons.1 hx with rfl | hx
                  · omega
                  · exact h.bound x hx hxi
                · rcases Nat.eq_or_lt_of_le k1 with rfl | k1
                  · refine ⟨[], c, cs, rfl, hi, h2, ?_, by simp⟩
                    obtain ⟨r, hr⟩ := h.prefix_
                    rw [← hr]
                    simp
                  · obtain ⟨a, d, b, rfl, i, s, n, l⟩ := h.first k (by rw [List.length_append, List.length_singleton]; omega) k2
                    refine ⟨c :: a, d, b, rfl, i, s, n, fun y hy hyi => ?_⟩
                    rcases List.mem_cons.1 hy with rfl | hy
                    · omega
                    · exact l y hy hyi
              · intro h
                have hb := h.bound c (by simp) hi
                refine ⟨?_, fun x hx => h.bound x (List.mem_cons_of_mem _ hx), fun k k1 k2 => ?_⟩
                · obtain ⟨a, d, b, e, i, s, n, l⟩ := h.first acc.length (le_refl _) (by omega)
                  cases a with
                  | nil =>
                    rw [List.nil_append, List.cons.injEq] at e
                    obtain ⟨rfl, rfl⟩ := e
                    obtain ⟨r, hr⟩ := h.prefix_
                    rw [← hr, List.getElem?_append_right (le_refl _), Nat.sub_self] at n
                    cases r with
                    | nil => simp at n
                    | cons y r =>
                      have : y = c.node := by simpa using n
                      exact ⟨r, by rw [← hr, this]; simp⟩
                  | cons x a =>
                    rw [List.cons_append, List.cons.injEq] at e
                    obtain ⟨rfl, rfl⟩ := e
                    have := l c (by simp) hi
                    omega
                · rw [List.length_append, List.length_singleton] at k1
                  obtain ⟨a, d, b, e, i, s, n, l⟩ := h.first k (by omega) k2
                  cases a with
                  | nil =>
                    rw [List.nil_append, List.cons.injEq] at e
                    obtain ⟨rfl, rfl⟩ := e
                    omega
                  | cons x a =>
                    rw [List.cons_append, List.cons.injEq] at e
                    obtain ⟨rfl, rfl⟩ := e
                    exact ⟨a, d, b, rfl, i, s, n, fun y hy => l y (List.mem_cons_of_mem _ hy)⟩
            rw [this]
            exact ⟨fun ⟨h, h'⟩ => ⟨⟨fun _ => ht, h⟩, h'⟩, fun ⟨⟨_, h⟩, h'⟩ => ⟨h, h'⟩⟩
          · rw [if_neg h2]
            constructor
            · intro h; cases h
            · rintro ⟨_, h⟩
              exfalso
              have hb := h.bound c (by simp) hi
              obtain ⟨a, d, b, e, i, s, n, l⟩ := h.first acc.length (le_refl _) (by omega)
              cases a with
              | nil =>
                rw [List.nil_append, List.cons.injEq] at e
                obtain ⟨rfl, rfl⟩ := e
                omega
              | cons x a =>
                rw [List.cons_append, List.cons.injEq] at e
                obtain ⟨rfl, rfl⟩ := e
                have := l c (by simp) hi
                omega
      · rw [if_neg ht]
        constructor
        · intro h; cases h
        · rintro ⟨⟨h, _⟩, _⟩
          exact absurd (h hi) ht
    · rw [if_neg hi, ih, skip fun h => absurd h hi]
      exact ⟨fun ⟨h, h'⟩ => ⟨⟨fun h0 => absurd h0 hi, h⟩, h'⟩, fun ⟨⟨_, h⟩, h'⟩ => ⟨h, h'⟩⟩

/-- **The representative of a submap is the node of the first constraint to the submap after it.**  The submaps have to appear in their order. -/
theorem representatives_iff (cs : List Constraint) (v : List Int) : representatives [] cs = some v ↔
    (∀ c ∈ cs, c.intra = true → c.submapTrajectory = 0 ∧ c.nodeTrajectory = 0) ∧ Represented [] cs v := representatives_acc cs [] v

/-! ### Transforms -/

/-- Transforms with a unit quaternion. -/
def Motion : Type := { r : Rigid3 // r.Proper }

noncomputable instance : Group Motion where
  mul a b := ⟨a.1.mul b.1, proper_mul a.2 b.2⟩
  one := ⟨Rigid3.identity, proper_identity⟩
  inv a := ⟨a.1.inverse, proper_inverse a.2⟩
  mul_assoc a b c := Subtype.ext (mul3_assoc a.2 b.2 c.2)
  one_mul a := Subtype.ext (mul3_identity a.2).2
  mul_one a := Subtype.ext (mul3_identity a.2).1
  inv_mul_cancel a := Subtype.ext (mul3_inverse a.2).2

theorem coe_mul (a b : Motion) : (a * b).1 = a.1.mul b.1 := rfl
theorem coe_inv (a : Motion) : (a⁻¹).1 = a.1.inverse := rfl

/-- The distance of two positions. -/
noncomputable def gap (a b : V3) : ℝ := V3.norm ⟨b.x - a.x, b.y - a.y, b.z - a.z⟩

theorem gap_eq (a b : V3) : gap a b = √(a.distSq b) := by
  unfold gap V3.norm V3.distSq
  congr 1
  ring

theorem gap_apply {a : Rigid3} (ha : a.Proper) (p q : V3) : gap (a.apply p) (a.apply q) = gap p q := by
  rw [gap_eq, gap_eq, apply3_dist ha]

theorem gap_nonneg (a b : V3) : 0 ≤ gap a b := norm_nonneg' _

theorem gap_symm (a b : V3) : gap a b = gap b a := by
  unfold gap V3.norm
  congr 1
  ring

theorem gap_triangle (a b c : V3) : gap a c ≤ gap a b + gap b c := by
  have h1 := gap_nonneg a b
  have h2 := gap_nonneg b c
  have s1 : gap a b ^ 2 = (b.x - a.x) ^ 2 + (b.y - a.y) ^ 2 + (b.z - a.z) ^ 2 := norm_sq _
  have s2 : gap b c ^ 2 = (c.x - b.x) ^ 2 + (c.y - b.y) ^ 2 + (c.z - b.z) ^ 2 := norm_sq _
  have s3 : gap a c ^ 2 = (c.x - a.x) ^ 2 + (c.y - a.y) ^ 2 + (c.z - a.z) ^ 2 := norm_sq _
  apply le_of_sq_le_sq _ (by linarith)
  generalize gap a b = u at *
  generalize gap b c = w at *
  generalize gap a c = t at *
  obtain ⟨p, hp⟩ : ∃ p, p = b.x - a.x := ⟨_, rfl⟩
  obtain ⟨q, hq⟩ : ∃ q, q = b.y - a.y := ⟨_, rfl⟩
  obtain ⟨r, hr⟩ : ∃ r, r = b.z - a.z := ⟨_, rfl⟩
  obtain ⟨p', hp'⟩ : ∃ p, p = c.x - b.x := ⟨_, rfl⟩
  obtain ⟨q', hq'⟩ : ∃ q, q = c.y - b.y := ⟨_, rfl⟩
  obtain ⟨r', hr'⟩ : ∃ r, r = c.z - b.z := ⟨_, rfl⟩
  rw [← hp, ← hq, ← hr] at s1
  rw [← hp', ← hq', ← hr'] at s2
  rw [show c.x - a.x = p + p' by rw [hp, hp']; ring, show c.y - a.y = q + q' by rw [hq, hq']; ring, show c.z - a.z = r + r' by rw [hr, hr']; ring] at s3
  have dot : p * p' + q * q' + r * r' ≤ u * w := by
    apply le_of_sq_le_sq _ (mul_nonneg h1 h2)
    have : (u * w) ^ 2 = (p ^ 2 + q ^ 2 + r ^ 2) * (p' ^ 2 + q' ^ 2 + r' ^ 2) := by rw [mul_pow, s1, s2]
    rw [this]
    nlinarith [sq_nonneg (p * q' - q * p'), sq_nonneg (p * r' - r * p'), sq_nonneg (q * r' - r * q')]
  nlinarith

theorem apply_origin (a : Rigid3) : a.apply ⟨0, 0, 0⟩ = a.translation := by
  unfold Rigid3.apply Quat.rotate cross
  ext <;> simp

/-- The translation between two poses is as long as the distance of their positions. -/
theorem norm_between {a : Rigid3} (ha : a.Proper) (b : Rigid3) : (a.inverse.mul b).translation.norm = gap a.translation b.translation := by
  have h1 : (a.inverse.mul b).translation = a.inverse.apply b.translation := rfl
  have h2 : gap (a.inverse.apply a.translation) (a.inverse.apply b.translation) = gap a.translation b.translation := gap_apply (proper_inverse ha) _ _
  have h3 : a.inverse.apply a.translation = ⟨0, 0, 0⟩ := by
    have : (a.inverse.mul a).translation = a.inverse.apply a.translation := rfl
    rw [← this, (mul3_inverse ha).2]
    rfl
  rw [h3] at h2
  rw [h1, ← h2]
  unfold gap
  simp

/-! ### Angles -/

theorem angle_of_w {a b : Rigid3} (ha : a.Proper) (hb : b.Proper) (h : |a.rotation.w| = |b.rotation.w|) : getAngle a = getAngle b := by
  have hn : V3.norm ⟨a.rotation.x, a.rotation.y, a.rotation.z⟩ = V3.norm ⟨b.rotation.x, b.rotation.y, b.rotation.z⟩ := by
    unfold V3.norm
    congr 1
    unfold Rigid3.Proper Quat.Unit at ha hb
    have := congrArg (· ^ 2) h
    simp only [sq_abs] at this
    dsimp only
    linarith
  unfold getAngle
  rw [h, hn]

theorem mul_w {a b : Rigid3} (ha : a.Proper) (hb : b.Proper) : (a.mul b).rotation.w = a.rotation.w * b.rotation.w - a.rotation.x * b.rotation.x - a.rotation.y * b.rotation.y - a.rotation.z * b.rotation.z := by
  unfold Rigid3.mul
  dsimp only
  rw [normalized_unit (unit_mul ha hb)]
  rfl

theorem angle_comm {a b : Rigid3} (ha : a.Proper) (hb : b.Proper) : getAngle (a.mul b) = getAngle (b.mul a) := by
  apply angle_of_w (proper_mul ha hb) (proper_mul hb ha)
  rw [mul_w ha hb, mul_w hb ha]
  congr 1
  ring

theorem angle_inverse {a : Rigid3} (ha : a.Proper) : getAngle a.inverse = getAngle a := angle_of_w (proper_inverse ha) ha rfl

/-- `GetAngle` is the angle of the rotation: of one by `angle` about a unit vector it is the absolute value. -/
theorem angle_exact (t axis : V3) (ha : axis.x * axis.x + axis.y * axis.y + axis.z * axis.z = 1) {angle : ℝ} (h : |angle| ≤ Real.pi) :
    getAngle ⟨t, ⟨Real.cos (angle / 2), Real.sin (angle / 2) * axis.x, Real.sin (angle / 2) * axis.y, Real.sin (angle / 2) * axis.z⟩⟩ = |angle| := by
  have hp := Real.pi_pos
  have h0 : 0 ≤ |angle| / 2 := by positivity
  have hc : |Real.cos (angle / 2)| = Real.cos (|angle| / 2) := by
    have : Real.cos (angle / 2) = Real.cos (|angle| / 2) := by
      rw [← Real.cos_abs (angle / 2), abs_div, abs_two]
    rw [this]
    exact abs_of_nonneg (Real.cos_nonneg_of_neg_pi_div_two_le_of_le (by linarith) (by linarith))
  have hs : V3.norm ⟨Real.sin (angle / 2) * axis.x, Real.sin (angle / 2) * axis.y, Real.sin (angle / 2) * axis.z⟩ = Real.sin (|angle| / 2) := by
    have e : Real.sin (|angle| / 2) = |Real.sin (angle / 2)| := by
      have h1 : 0 ≤ Real.sin (|angle| / 2) := Real.sin_nonneg_of_nonneg_of_le_pi h0 (by linarith)
      rcases abs_cases angle with ⟨h2, _⟩ | ⟨h2, _⟩
      · rw [h2] at h1 ⊢
        exact (abs_of_nonneg h1).symm
      · rw [h2, neg_div, Real.sin_neg] at h1 ⊢
        exact (abs_of_nonpos (by linarith)).symm
    rw [e, ← Real.sqrt_sq_eq_abs]
    unfold V3.norm
    congr 1
    linear_combination Real.sin (angle / 2) ^ 2 * ha
  unfold getAngle
  dsimp only
  rw [hc, hs]
  have e : (⟨Real.cos (|angle| / 2), Real.sin (|angle| / 2)⟩ : ℂ) = Complex.cos ((|angle| / 2 : ℝ) : ℂ) + Complex.sin ((|angle| / 2 : ℝ) : ℂ) * Complex.I := by
    rw [← Complex.ofReal_cos, ← Complex.ofReal_sin]
    generalize Real.cos (|angle| / 2) = c
    generalize Real.sin (|angle| / 2) = d
    apply Complex.ext <;> simp
  rw [e, Complex.arg_cos_add_sin_mul_I ⟨by linarith, by linarith⟩]
  ring

theorem angle_mem (a : Rigid3) : 0 ≤ getAngle a ∧ getAngle a ≤ Real.pi := by
  unfold getAngle
  have h1 : 0 ≤ Complex.arg ⟨|a.rotation.w|, V3.norm ⟨a.rotation.x, a.rotation.y, a.rotation.z⟩⟩ := Complex.arg_nonneg_iff.2 (norm_nonneg' _)
  have h2 : |Complex.arg ⟨|a.rotation.w|, V3.norm ⟨a.rotation.x, a.rotation.y, a.rotation.z⟩⟩| ≤ Real.pi / 2 := Complex.abs_arg_le_pi_div_two_iff.2 (abs_nonneg _)
  rw [abs_of_nonneg h1] at h2
  constructor <;> linarith

/-! ### Covered distance -/

/-- The length of the way along nodes. -/
noncomputable def path : List Node → ℝ
  | [] => 0
  | [_] => 0
  | a :: b :: l => gap a.pose.translation b.pose.translation + path (b :: l)

theorem path_append (x : Node) : ∀ (a b : List Node), path (a ++ x :: b) = path (a ++ [x]) + path (x :: b)
  | [], b => by simp [path]
  | [y], [] => by simp [path]
  | [y], z :: b => by simp [path]
  | y :: z :: a, b => by
    have := path_append x (z :: a) b
    simp only [List.cons_append, path] at this ⊢
    rw [this]
    ring

theorem path_nonneg : ∀ l : List Node, 0 ≤ path l
  | [] => le_refl _
  | [_] => le_refl _
  | a :: b :: l => by
    have := path_nonneg (b :: l)
    have := gap_nonneg a.pose.translation b.pose.translation
    simp only [path]
    linarith

/-- A way is not shorter than the distance of its ends. -/
theorem gap_le_path (x y : Node) : ∀ l : List Node, gap x.pose.translation y.pose.translation ≤ path (x :: l ++ [y])
  | [] => by simp [path]
  | z :: l => by
    have h1 := gap_le_path z y l
    have h2 := gap_triangle x.pose.translation z.pose.translation y.pose.translation
    simp only [List.cons_append, path] at h1 ⊢
    linarith

theorem coveredLoop_get : ∀ (l : List Node) (n : Node) (back : ℝ), n.pose.Proper → (∀ m ∈ l, m.pose.Proper) →
    (coveredLoop n.pose back l).length = l.length ∧ ∀ i, i < l.length → (coveredLoop n.pose back l)[i]? = some (back + path (n :: l.take (i + 1)))
  | [], n, back, _, _ => ⟨rfl, by simp⟩
  | m :: l, n, back, hn, hl => by
    have hm := hl m (by simp)
    obtain ⟨h1, h2⟩ := coveredLoop_get l m (back + (n.pose.inverse.mul m.pose).translation.norm) hm (fun x hx => hl x (List.mem_cons_of_mem _ hx))
    refine ⟨by simp [coveredLoop, h1], fun i hi => ?_⟩
    rw [norm_between hn m.pose] at h2
    cases i with
    | zero => simp [coveredLoop, path, norm_between hn m.pose]
    | succ i =>
      unfold coveredLoop
      dsimp only
      rw [norm_between hn m.pose, List.getElem?_cons_succ, h2 i (by simpa using hi), List.take_succ_cons, path, add_assoc]

/-- The covered distance at a node is the length of the way to it. -/
theorem covered_get {t : Trajectory} (hp : ∀ n ∈ t.nodes, n.pose.Proper) {l : List ℝ} (h : coveredDistance t = some l) :
    l.length = t.nodes.length ∧ ∀ i, i < t.nodes.length → l[i]? = some (path (t.nodes.take (i + 1))) := by
  unfold coveredDistance at h
  cases hn : t.nodes with
  | nil => rw [hn] at h; cases h
  | cons n ns =>
    rw [hn] at h hp
    simp only [Option.some.injEq] at h
    subst h
    obtain ⟨h1, h2⟩ := coveredLoop_get ns n 0 (hp n (by simp)) (fun m hm => hp m (List.mem_cons_of_mem _ hm))
    refine ⟨by simp [h1], fun i hi => ?_⟩
    cases i with
    | zero => simp [path]
    | succ i =>
      rw [List.getElem?_cons_succ, h2 i (by simpa using hi), zero_add, List.take_succ_cons]

theorem covered_none (t : Trajectory) : coveredDistance t = none ↔ t.nodes = [] := by
  unfold coveredDistance
  cases t.nodes <;> simp

/-- The way between two nodes. -/
noncomputable def way (nodes : List Node) (i j : Nat) : ℝ := path ((nodes.take (max i j + 1)).drop (min i j))

theorem way_of_le {nodes : List Node} {i j : Nat} (hij : i ≤ j) (hj : j < nodes.length) :
    path (nodes.take (j + 1)) = path (nodes.take (i + 1)) + path ((nodes.take (j + 1)).drop i) := by
  have hi : i < (nodes.take (j + 1)).length := by rw [List.length_take]; omega
  have e1 : nodes.take (j + 1) = nodes.take i ++ nodes[i] :: (nodes.take (j + 1)).drop (i + 1) := by
    conv_lhs => rw [← List.take_append_drop i (nodes.take (j + 1)), List.take_take, Nat.min_eq_left (by omega), List.drop_eq_getElem_cons hi]
    rw [List.getElem_take]
  have e2 : nodes.take (i + 1) = nodes.take i ++ [nodes[i]] := by
    rw [List.take_add_one, List.getElem?_eq_getElem (by omega)]
    rfl
  have e3 : (nodes.take (j + 1)).drop i = nodes[i] :: (nodes.take (j + 1)).drop (i + 1) := by
    rw [List.drop_eq_getElem_cons hi, List.getElem_take]
  rw [e3, e2]
  conv_lhs => rw [e1]
  exact path_append _ _ _

theorem way_eq {nodes : List Node} {i j : Nat} (hi : i < nodes.length) (hj : j < nodes.length) : |path (nodes.take (i + 1)) - path (nodes.take (j + 1))| = way nodes i j := by
  unfold way
  rcases le_total i j with h | h
  · rw [max_eq_right h, min_eq_left h, way_of_le h hj]
    have := path_nonneg ((nodes.take (j + 1)).drop i)
    rw [abs_of_nonpos (by linarith)]
    ring
  · rw [max_eq_left h, min_eq_right h, way_of_le h hi]
    have := path_nonneg ((nodes.take (i + 1)).drop j)
    rw [abs_of_nonneg (by linarith)]
    ring

/-- The way between two nodes is not shorter than their distance. -/
theorem gap_le_way {nodes : List Node} {i j : Nat} (hi : i < nodes.length) (hj : j < nodes.length) : gap nodes[i].pose.translation nodes[j].pose.translation ≤ way nodes i j := by
  have key : ∀ (i j : Nat) (hi : i < nodes.length) (hj : j < nodes.length), i ≤ j → gap nodes[i].pose.translation nodes[j].pose.translation ≤ path ((nodes.take (j + 1)).drop i) := by
    intro i j hi hj h
    rcases Nat.eq_or_lt_of_le h with rfl | h
    · have : gap nodes[i].pose.translation nodes[i].pose.translation = 0 := by unfold gap V3.norm; simp
      rw [this]
      exact path_nonneg _
    · have e : (nodes.take (j + 1)).drop i = nodes[i] :: (nodes.take j).drop (i + 1) ++ [nodes[j]] := by
        rw [List.take_add_one, List.getElem?_eq_getElem hj, List.drop_append_of_le_length (by rw [List.length_take]; omega),
          List.drop_eq_getElem_cons (by rw [List.length_take]; omega), List.getElem_take]
        rfl
      rw [e]
      exact gap_le_path _ _ _
  unfold way
  rcases le_total i j with h | h
  · rw [max_eq_right h, min_eq_left h]
    exact key i j hi hj h
  · rw [max_eq_left h, min_eq_right h, gap_symm]
    exact key j i hj hi h

/-! ### Errors of a relation -/

theorem apply_mul (a b : Motion) (p : V3) : (a * b).1.apply p = a.1.apply (b.1.apply p) := apply3_mul a.2 b.2 p

theorem apply_inv_self (a : Motion) (p : V3) : (a⁻¹).1.apply (a.1.apply p) = p := by
  rw [← apply_mul, inv_mul_cancel]
  show Rigid3.identity.apply p = p
  unfold Rigid3.identity Rigid3.apply
  dsimp only
  rw [rotate_one]
  simp

/-- The translational error is the distance between two views of the first position from the second pose: as it is, and as it is expected. -/
theorem error_norm (a b e : Motion) : ((a⁻¹ * b) * e⁻¹).1.translation.norm = gap ((b⁻¹).1.apply a.1.translation) (((a * e)⁻¹).1.apply a.1.translation) := by
  have h1 : ((a⁻¹ * b) * e⁻¹) = a⁻¹ * (b * ((a * e)⁻¹ * a)) := by group
  have h2 : ((a⁻¹ * b) * e⁻¹).1.translation = (a⁻¹).1.apply (b.1.apply (((a * e)⁻¹).1.apply a.1.translation)) := by
    rw [← apply_origin, h1, apply_mul, apply_mul, apply_mul, apply_origin a.1]
  have h3 : ∀ v : V3, v.norm = gap ⟨0, 0, 0⟩ v := by intro v; unfold gap; simp
  have h4 : (a⁻¹).1.apply a.1.translation = ⟨0, 0, 0⟩ := by rw [← apply_origin, apply_inv_self]
  rw [h2, h3, ← h4, gap_apply (a⁻¹).2]
  have h5 := gap_apply b.2 ((b⁻¹).1.apply a.1.translation) (((a * e)⁻¹).1.apply a.1.translation)
  rw [← h5]
  congr 1
  have := apply_inv_self b⁻¹ a.1.translation
  rw [inv_inv] at this
  exact this.symm

/-- The rotational error is the angle between the expected and the actual second pose. -/
theorem error_angle (a b e : Motion) : getAngle ((a⁻¹ * b) * e⁻¹).1 = getAngle ((a * e)⁻¹ * b).1 := by
  have h1 : ((a⁻¹ * b) * e⁻¹) = a⁻¹ * (b * (a * e)⁻¹ * a) := by group
  have h2 : (b * (a * e)⁻¹ * a) * a⁻¹ = b * (a * e)⁻¹ := by group
  rw [h1, coe_mul, angle_comm (a⁻¹).2 (b * (a * e)⁻¹ * a).2, ← coe_mul, h2, coe_mul, angle_comm b.2 ((a * e)⁻¹).2, ← coe_mul]

/-! ### Relations -/

theorem at?_iff {α : Type} (l : List α) (i : Int) (x : α) : at? l i = some x ↔ ∃ k : Nat, i = k ∧ l[k]? = some x := by
  unfold at?
  split
  · rename_i h
    constructor
    · intro h'
      exact ⟨i.toNat, by omega, h'⟩
    · rintro ⟨k, rfl, h'⟩
      simpa using h'
  · rename_i h
    constructor
    · intro h'; cases h'
    · rintro ⟨k, rfl, _⟩
      omega

theorem at?_nat {α : Type} (l : List α) (k : Nat) : at? l k = l[k]? := by
  unfold at?
  rw [if_pos (by omega), Int.toNat_natCast]

/-- A loop closure is used, with this relation: the submap has a representative, the way between the nodes is long enough, and the expected pose of the
second node, as seen from the representative, is near the one it has. -/
def Accepted (t : Trajectory) (reps : List Int) (minCovered meters radians : ℝ) (c : Constraint) (r : Relation) : Prop :=
  c.intra = false ∧ c.submapTrajectory = 0 ∧ c.nodeTrajectory = 0 ∧ ∃ (k i j : Nat) (first second : Node) (submap : Rigid3),
    c.submap = k ∧ reps[k]? = some (i : Int) ∧ c.node = j ∧ t.nodes[i]? = some first ∧ t.nodes[j]? = some second ∧ t.submaps[k]? = some submap ∧
    minCovered ≤ way t.nodes j i ∧
    gap (second.pose.inverse.apply first.pose.translation) ((submap.mul c.relativePose).inverse.apply first.pose.translation) ≤ meters ∧
    getAngle ((submap.mul c.relativePose).inverse.mul second.pose) ≤ radians ∧
    r.time1 = first.time ∧ r.time2 = second.time ∧ r.covered = way t.nodes j i ∧ r.expected.Proper ∧ first.pose.mul r.expected = submap.mul c.relativePose

/-- All rotations of a trajectory are unit quaternions. -/
structure ProperTrajectory (t : Trajectory) : Prop where
  nodes : ∀ n ∈ t.nodes, n.pose.Proper
  submaps : ∀ s ∈ t.submaps, s.Proper

theorem relation_iff {t : Trajectory} (ht : ProperTrajectory t) {covered : List ℝ} (hc : coveredDistance t = some covered) (reps : List Int) (minCovered meters radians : ℝ)
    {c : Constraint} (hp : c.relativePose.Proper) (r : Relation) :
    relation t covered reps minCovered meters radians c = some (some r) ↔ Accepted t reps minCovered meters radians c r := by
  obtain ⟨hlen, hcov⟩ := covered_get ht.nodes hc
  have hget : ∀ (i : Nat) (x : ℝ), covered[i]? = some x ↔ i < t.nodes.length ∧ x = path (t.nodes.take (i + 1)) := by
    intro i x
    constructor
    · intro h
      have hi : i < t.nodes.length := hlen ▸ (List.getElem?_eq_some_iff.1 h).1
      rw [hcov i hi, Option.some.injEq] at h
      exact ⟨hi, h.symm⟩
    · rintro ⟨h, rfl⟩
      exact hcov i h
  -- the errors
  have key : ∀ (first second : Node) (submap : Rigid3), first ∈ t.nodes → second ∈ t.nodes → submap ∈ t.submaps →
      let solution := first.pose.inverse.mul second.pose
      let expected := (first.pose.inverse.mul submap).mul c.relativePose
      let error := solution.mul expected.inverse
      error.translation.norm = gap (second.pose.inverse.apply first.pose.translation) ((submap.mul c.relativePose).inverse.apply first.pose.translation) ∧
      getAngle error = getAngle ((submap.mul c.relativePose).inverse.mul second.pose) ∧ expected.Proper ∧
      ∀ e : Rigid3, (e.Proper ∧ first.pose.mul e = submap.mul c.relativePose) ↔ e = expected := by
    intro first second submap h1 h2 h3
    let a : Motion := ⟨first.pose, ht.nodes _ h1⟩
    let b : Motion := ⟨second.pose, ht.nodes _ h2⟩
    let s : Motion := ⟨submap, ht.submaps _ h3⟩
    let d : Motion := ⟨c.relativePose, hp⟩
    have e1 := error_norm a b (a⁻¹ * s * d)
    have e2 := error_angle a b (a⁻¹ * s * d)
    have e3 : a * (a⁻¹ * s * d) = s * d := by group
    rw [e3] at e1 e2
    refine ⟨e1, e2, (a⁻¹ * s * d).2, fun e => ?_⟩
    constructor
    · rintro ⟨he, h⟩
      let m : Motion := ⟨e, he⟩
      have h' : a * m = s * d := Subtype.ext h
      have : m = a⁻¹ * s * d := by rw [mul_assoc, ← h']; group
      exact congrArg Subtype.val this
    · rintro rfl
      exact ⟨(a⁻¹ * s * d).2, congrArg Subtype.val e3⟩
  unfold relation Accepted
  by_cases hi : c.intra = true
  · simp [hi]
  · have hi' : c.intra = false := by simpa using hi
    rw [if_neg hi]
    by_cases htr : c.submapTrajectory = 0 ∧ c.nodeTrajectory = 0
    · rw [if_pos htr]
      by_cases hs : (reps.length : Int) ≤ c.submap
      · rw [if_pos hs]
        constructor
        · intro h; cases h
        · rintro ⟨_, _, _, k, i, j, _, _, _, h1, h2, _⟩
          have := (List.getElem?_eq_some_iff.1 h2).1
          omega
      · rw [if_neg hs]
        simp only [Option.bind_eq_bind, Option.bind_eq_some_iff, at?_iff]
        constructor
        · rintro ⟨rep, ⟨k, hk, hrep⟩, a, ⟨j, hj, ha⟩, b, ⟨i, hirep, hb⟩, h⟩
          obtain ⟨hj1, rfl⟩ := (hget _ _).1 ha
          obtain ⟨hi1, rfl⟩ := (hget _ _).1 hb
          rw [way_eq hj1 hi1] at h
          split at h
          · cases h
          · rename_i hw
            simp only [Option.bind_eq_some_iff, at?_iff] at h
            obtain ⟨first, ⟨i', hi2, hfirst⟩, second, ⟨j', hj2, hsecond⟩, submap, ⟨k', hk2, hsub⟩, h⟩ := h
            have : i' = i := by omega
            subst this
            have : j' = j := by omega
            subst this
            have : k' = k := by omega
            subst this
            obtain ⟨k1, k2, k3, k4⟩ := key first second submap (List.mem_of_getElem? hfirst) (List.mem_of_getElem? hsecond) (List.mem_of_getElem? hsub)
            split at h
            · cases h
            · rename_i herr
              rw [Option.some.injEq, Option.some.injEq] at h
              subst h
              rw [k1, k2] at herr
              push Not at herr
              refine ⟨hi', htr.1, htr.2, k', i', j', first, second, submap, hk, by rw [hrep, hirep], hj, hfirst, hsecond, hsub, not_lt.1 hw, herr.1, herr.2, rfl, rfl, rfl, ?_⟩
              exact (k4 _).2 rfl
        · rintro ⟨_, _, _, k, i, j, first, second, submap, hk, hrep, hj, hfirst, hsecond, hsub, hw, he1, he2, ht1, ht2, hcv, hex⟩
          have hi1 := (List.getElem?_eq_some_iff.1 hfirst).1
          have hj1 := (List.getElem?_eq_some_iff.1 hsecond).1
          obtain ⟨k1, k2, k3, k4⟩ := key first second submap (List.mem_of_getElem? hfirst) (List.mem_of_getElem? hsecond) (List.mem_of_getElem? hsub)
          refine ⟨i, ⟨k, hk, hrep⟩, _, ⟨j, hj, hcov j hj1⟩, _, ⟨i, rfl, hcov i hi1⟩, ?_⟩
          rw [way_eq hj1 hi1, if_neg (not_lt.2 hw)]
          simp only [Option.bind_eq_some_iff, at?_iff]
          refine ⟨first, ⟨i, rfl, hfirst⟩, second, ⟨j, hj, hsecond⟩, submap, ⟨k, hk, hsub⟩, ?_⟩
          rw [k1, k2, if_neg (by push Not; exact ⟨he1, he2⟩), Option.some.injEq, Option.some.injEq]
          obtain ⟨t1, t2, ex, cv⟩ := r
          dsimp only at ht1 ht2 hcv hex
          rw [ht1, ht2, hcv, (k4 ex).1 hex]
    · rw [if_neg htr]
      constructor
      · intro h; cases h
      · rintro ⟨_, h1, h2, _⟩
        exact absurd ⟨h1, h2⟩ htr

/-- A loop closure can be handled: it has to belong to the first trajectory, and all indices that are used have to exist. -/
def Usable (t : Trajectory) (reps : List Int) (minCovered : ℝ) (c : Constraint) : Prop :=
  c.intra = true ∨ (c.submapTrajectory = 0 ∧ c.nodeTrajectory = 0 ∧ ((reps.length : Int) ≤ c.submap ∨ ∃ k i j : Nat, c.submap = k ∧ reps[k]? = some (i : Int) ∧ c.node = j ∧
    i < t.nodes.length ∧ j < t.nodes.length ∧ (minCovered ≤ way t.nodes j i → k < t.submaps.length)))

theorem relation_isSome {t : Trajectory} (ht : ProperTrajectory t) {covered : List ℝ} (hc : coveredDistance t = some covered) (reps : List Int) (minCovered meters radians : ℝ)
    (c : Constraint) : (∃ o, relation t covered reps minCovered meters radians c = some o) ↔ Usable t reps minCovered c := by
  obtain ⟨hlen, hcov⟩ := covered_get ht.nodes hc
  have hget : ∀ (i : Nat) (x : ℝ), covered[i]? = some x ↔ i < t.nodes.length ∧ x = path (t.nodes.take (i + 1)) := by
    intro i x
    constructor
    · intro h
      have hi : i < t.nodes.length := hlen ▸ (List.getElem?_eq_some_iff.1 h).1
      rw [hcov i hi, Option.some.injEq] at h
      exact ⟨hi, h.symm⟩
    · rintro ⟨h, rfl⟩
      exact hcov i h
  unfold relation Usable
  by_cases hi : c.intra = true
  · simp [hi]
  · rw [if_neg hi]
    by_cases htr : c.submapTrajectory = 0 ∧ c.nodeTrajectory = 0
    · rw [if_pos htr]
      by_cases hs : (reps.length : Int) ≤ c.submap
      · rw [if_pos hs]
        exact ⟨fun _ => Or.inr ⟨htr.1, htr.2, Or.inl hs⟩, fun _ => ⟨none, rfl⟩⟩
      · rw [if_neg hs]
        simp only [Option.bind_eq_bind, Option.bind_eq_some_iff, at?_iff]
        constructor
        · rintro ⟨o, rep, ⟨k, hk, hrep⟩, a, ⟨j, hj, ha⟩, b, ⟨i, hirep, hb⟩, h⟩
          obtain ⟨hj1, rfl⟩ := (hget _ _).1 ha
          obtain ⟨hi1, rfl⟩ := (hget _ _).1 hb
          refine Or.inr ⟨htr.1, htr.2, Or.inr ⟨k, i, j, hk, by rw [hrep, hirep], hj, hi1, hj1, fun hw => ?_⟩⟩
          rw [way_eq hj1 hi1, if_neg (not_lt.2 hw)] at h
          simp only [Option.bind_eq_some_iff, at?_iff] at h
          obtain ⟨_, _, _, _, submap, ⟨k', hk2, hsub⟩, _⟩ := h
          have : k' = k := by omega
          subst this
          exact (List.getElem?_eq_some_iff.1 hsub).1
        · rintro (h | ⟨_, _, h | ⟨k, i, j, hk, hrep, hj, hi1, hj1, hw⟩⟩)
          · exact absurd h hi
          · exact absurd h hs
          · by_cases hway : way t.nodes j i < minCovered
            · refine ⟨none, i, ⟨k, hk, hrep⟩, _, ⟨j, hj, hcov j hj1⟩, _, ⟨i, rfl, hcov i hi1⟩, ?_⟩
              rw [way_eq hj1 hi1, if_pos hway]
            · have hk1 := hw (not_lt.1 hway)
              by_cases herr : (((t.nodes[i].pose.inverse.mul t.nodes[j].pose).mul ((t.nodes[i].pose.inverse.mul t.submaps[k]).mul c.relativePose).inverse).translation.norm > meters ∨
                  getAngle ((t.nodes[i].pose.inverse.mul t.nodes[j].pose).mul ((t.nodes[i].pose.inverse.mul t.submaps[k]).mul c.relativePose).inverse) > radians)
              · refine ⟨none, i, ⟨k, hk, hrep⟩, _, ⟨j, hj, hcov j hj1⟩, _, ⟨i, rfl, hcov i hi1⟩, ?_⟩
                rw [way_eq hj1 hi1, if_neg hway]
                simp only [Option.bind_eq_some_iff, at?_iff]
                refine ⟨t.nodes[i], ⟨i, rfl, List.getElem?_eq_getElem hi1⟩, t.nodes[j], ⟨j, hj, List.getElem?_eq_getElem hj1⟩, t.submaps[k], ⟨k, hk, List.getElem?_eq_getElem hk1⟩, ?_⟩
                rw [if_pos herr]
              · refine ⟨some ⟨t.nodes[i].time, t.nodes[j].time, (t.nodes[i].pose.inverse.mul t.submaps[k]).mul c.relativePose, way t.nodes j i⟩, i, ⟨k, hk, hrep⟩, _, ⟨j, hj, hcov j hj1⟩, _, ⟨i, rfl, hcov i hi1⟩, ?_⟩
                rw [way_eq hj1 hi1, if_neg hway]
                simp only [Option.bind_eq_some_iff, at?_iff]
                refine ⟨t.nodes[i], ⟨i, rfl, List.getElem?_eq_getElem hi1⟩, t.nodes[j], ⟨j, hj, List.getElem?_eq_getElem hj1⟩, t.submaps[k], ⟨k, hk, List.getElem?_eq_getElem hk1⟩, ?_⟩
                rw [if_neg herr]
    · rw [if_neg htr]
      constructor
      · rintro ⟨o, h⟩; cases h
      · rintro (h | ⟨h1, h2, _⟩)
        · exact absurd h hi
        · exact absurd ⟨h1, h2⟩ htr

/-- The loop closures that are used. -/
noncomputable def chosen (t : Trajectory) (reps : List Int) (minCovered meters radians : ℝ) (cs : List Constraint) : List Constraint := by
  classical exact cs.filter fun c => decide (∃ r, Accepted t reps minCovered meters radians c r)

theorem relations_spec {t : Trajectory} (ht : ProperTrajectory t) {covered : List ℝ} (hc : coveredDistance t = some covered) (reps : List Int) (minCovered meters radians : ℝ) :
    ∀ cs : List Constraint, (∀ c ∈ cs, c.relativePose.Proper) →
      ((∃ rels, relations t covered reps minCovered meters radians cs = some rels) ↔ ∀ c ∈ cs, Usable t reps minCovered c) ∧
      ∀ rels, relations t covered reps minCovered meters radians cs = some rels →
        List.Forall₂ (Accepted t reps minCovered meters radians) (chosen t reps minCovered meters radians cs) rels
  | [], _ => by
    refine ⟨by simp [relations], fun rels h => ?_⟩
    have : rels = [] := by simpa [relations] using h.symm
    rw [this]
    exact List.Forall₂.nil
  | c :: cs, hp => by
    obtain ⟨ih1, ih2⟩ := relations_spec ht hc reps minCovered meters radians cs (fun x hx => hp x (List.mem_cons_of_mem _ hx))
    have hs := relation_isSome ht hc reps minCovered meters radians c
    have hr := relation_iff ht hc reps minCovered meters radians (hp c (by simp))
    have step : ∀ rels, relations t covered reps minCovered meters radians (c :: cs) = some rels ↔
        ∃ o, relation t covered reps minCovered meters radians c = some o ∧ ∃ rest, relations t covered reps minCovered meters radians cs = some rest ∧ o.toList ++ rest = rels := by
      intro rels
      simp only [relations, Option.bind_eq_bind, Option.bind_eq_some_iff, Option.some.injEq]
    refine ⟨?_, fun rels h => ?_⟩
    · rw [List.forall_mem_cons, ← hs, ← ih1]
      constructor
      · rintro ⟨rels, h⟩
        obtain ⟨o, h1, rest, h2, _⟩ := (step rels).1 h
        exact ⟨⟨o, h1⟩, rest, h2⟩
      · rintro ⟨⟨o, h1⟩, rest, h2⟩
        exact ⟨_, (step _).2 ⟨o, h1, rest, h2, rfl⟩⟩
    · obtain ⟨o, h1, rest, h2, rfl⟩ := (step rels).1 h
      have ih := ih2 rest h2
      cases o with
      | none =>
        have hno : ¬ ∃ r, Accepted t reps minCovered meters radians c r := by
          rintro ⟨r, h'⟩
          rw [(hr r).2 h'] at h1
          cases h1
        have e : chosen t reps minCovered meters radians (c :: cs) = chosen t reps minCovered meters radians cs := by
          classical
          unfold chosen
          exact List.filter_cons_of_neg (by simpa using fun r hr' => hno ⟨r, hr'⟩)
        rw [e]
        exact ih
      | some r =>
        have hacc := (hr r).1 h1
        have e : chosen t reps minCovered meters radians (c :: cs) = c :: chosen t reps minCovered meters radians cs := by
          classical
          unfold chosen
          exact List.filter_cons_of_pos (by simpa using ⟨r, hacc⟩)
        rw [e]
        exact List.Forall₂.cons hacc ih

/-- All rotations of a pose graph are unit quaternions. -/
structure ProperGraph (g : PoseGraph) : Prop where
  trajectories : ∀ t ∈ g.trajectories, ProperTrajectory t
  constraints : ∀ c ∈ g.constraints, c.relativePose.Proper

theorem generate_some (g : PoseGraph) (minCovered meters radians : ℝ) (rels : List Relation) : generate g minCovered meters radians = some rels ↔
    ∃ t, g.trajectories[0]? = some t ∧ ∃ covered, coveredDistance t = some covered ∧ ∃ reps, representatives [] g.constraints = some reps ∧
      relations t covered reps minCovered meters radians g.constraints = some rels := by
  simp only [generate, Option.bind_eq_bind, Option.bind_eq_some_iff]

/-- **When ground truth can be generated**: there has to be a first trajectory with nodes, all constraints that are looked at belong to it, submaps appear
in their order, and all indices exist. -/
theorem generate_isSome {g : PoseGraph} (hg : ProperGraph g) (minCovered meters radians : ℝ) : (∃ rels, generate g minCovered meters radians = some rels) ↔
    ∃ t reps, g.trajectories[0]? = some t ∧ t.nodes ≠ [] ∧ (∀ c ∈ g.constraints, c.intra = true → c.submapTrajectory = 0 ∧ c.nodeTrajectory = 0) ∧
      Represented [] g.constraints reps ∧ ∀ c ∈ g.constraints, Usable t reps minCovered c := by
  constructor
  · rintro ⟨rels, h⟩
    obtain ⟨t, h1, covered, h2, reps, h3, h4⟩ := (generate_some _ _ _ _ _).1 h
    obtain ⟨h5, h6⟩ := (representatives_iff _ _).1 h3
    refine ⟨t, reps, h1, ?_, h5, h6, (relations_spec (hg.trajectories _ (List.mem_of_getElem? h1)) h2 reps minCovered meters radians _ hg.constraints).1.1 ⟨rels, h4⟩⟩
    intro hn
    rw [(covered_none t).2 hn] at h2
    cases h2
  · rintro ⟨t, reps, h1, h2, h3, h4, h5⟩
    cases hcv : coveredDistance t with
    | none => exact absurd ((covered_none t).1 hcv) h2
    | some covered =>
      obtain ⟨rels, h6⟩ := (relations_spec (hg.trajectories _ (List.mem_of_getElem? h1)) hcv reps minCovered meters radians _ hg.constraints).1.2 h5
      exact ⟨rels, (generate_some _ _ _ _ _).2 ⟨t, h1, covered, hcv, reps, (representatives_iff _ _).2 ⟨h3, h4⟩, h6⟩⟩

/-- **The relations are those of the loop closures that are long enough and agree with the solution, in their order.** -/
theorem generate_spec {g : PoseGraph} (hg : ProperGraph g) {minCovered meters radians : ℝ} {rels : List Relation} (h : generate g minCovered meters radians = some rels) :
    ∃ t reps, g.trajectories[0]? = some t ∧ Represented [] g.constraints reps ∧
      List.Forall₂ (Accepted t reps minCovered meters radians) (chosen t reps minCovered meters radians g.constraints) rels := by
  obtain ⟨t, h1, covered, h2, reps, h3, h4⟩ := (generate_some _ _ _ _ _).1 h
  exact ⟨t, reps, h1, ((representatives_iff _ _).1 h3).2, (relations_spec (hg.trajectories _ (List.mem_of_getElem? h1)) h2 reps minCovered meters radians _ hg.constraints).2 rels h4⟩

theorem forall₂_mem {α β : Type} {R : α → β → Prop} {l : List α} {l' : List β} (h : List.Forall₂ R l l') {y : β} (hy : y ∈ l') : ∃ x ∈ l, R x y := by
  induction h with
  | nil => simp at hy
  | cons hab _ ih =>
    rcases List.mem_cons.1 hy with rfl | hy
    · exact ⟨_, by simp, hab⟩
    · obtain ⟨c, h1, h2⟩ := ih hy
      exact ⟨c, List.mem_cons_of_mem _ h1, h2⟩

/-- **The covered distance of a relation is at least the wanted one, and at least the distance between the two nodes.** -/
theorem generate_covered {g : PoseGraph} (hg : ProperGraph g) {minCovered meters radians : ℝ} {rels : List Relation} (h : generate g minCovered meters radians = some rels) :
    ∃ t, g.trajectories[0]? = some t ∧ ∀ r ∈ rels, minCovered ≤ r.covered ∧ ∃ first ∈ t.nodes, ∃ second ∈ t.nodes, r.time1 = first.time ∧ r.time2 = second.time ∧
      gap first.pose.translation second.pose.translation ≤ r.covered := by
  obtain ⟨t, reps, h1, _, h3⟩ := generate_spec hg h
  refine ⟨t, h1, fun r hr => ?_⟩
  obtain ⟨c, _, hacc⟩ := forall₂_mem h3 hr
  obtain ⟨_, _, _, k, i, j, first, second, submap, _, _, _, e4, e5, _, e7, _, _, e10, e11, e12, _⟩ := hacc
  obtain ⟨hi, e4⟩ := List.getElem?_eq_some_iff.1 e4
  obtain ⟨hj, e5⟩ := List.getElem?_eq_some_iff.1 e5
  refine ⟨by rw [e12]; exact e7, first, e4 ▸ List.getElem_mem hi, second, e5 ▸ List.getElem_mem hj, e10, e11, ?_⟩
  rw [e12, gap_symm, ← e4, ← e5]
  exact gap_le_way hj hi

/-! ### The frame does not matter -/

/-- A trajectory in another frame. -/
noncomputable def moveTrajectory (m : Rigid3) (t : Trajectory) : Trajectory := ⟨t.nodes.map fun n => ⟨n.time, m.mul n.pose⟩, t.submaps.map m.mul⟩

/-- A pose graph in another frame. -/
noncomputable def moveGraph (m : Rigid3) (g : PoseGraph) : PoseGraph := ⟨g.trajectories.map (moveTrajectory m), g.constraints⟩

theorem between_move {m a b : Rigid3} (hm : m.Proper) (ha : a.Proper) (hb : b.Proper) : (m.mul a).inverse.mul (m.mul b) = a.inverse.mul b := by
  let m' : Motion := ⟨m, hm⟩
  let a' : Motion := ⟨a, ha⟩
  let b' : Motion := ⟨b, hb⟩
  have : (m' * a')⁻¹ * (m' * b') = a'⁻¹ * b' := by group
  exact congrArg Subtype.val this

theorem coveredLoop_move {m : Rigid3} (hm : m.Proper) : ∀ (l : List Node) (last : Rigid3) (back : ℝ), last.Proper → (∀ n ∈ l, n.pose.Proper) →
    coveredLoop (m.mul last) back (l.map fun n => ⟨n.time, m.mul n.pose⟩) = coveredLoop last back l
  | [], _, _, _, _ => rfl
  | n :: l, last, back, hl, hn => by
    simp only [List.map_cons, coveredLoop]
    rw [between_move hm hl (hn n (by simp)), coveredLoop_move hm l n.pose _ (hn n (by simp)) fun x hx => hn x (List.mem_cons_of_mem _ hx)]

theorem at?_map {α β : Type} (f : α → β) (l : List α) (i : Int) : at? (l.map f) i = (at? l i).map f := by
  unfold at?
  split
  · rw [List.getElem?_map]
  · rfl

theorem at?_mem {α : Type} {l : List α} {i : Int} {x : α} (h : at? l i = some x) : x ∈ l := by
  obtain ⟨k, _, h⟩ := (at?_iff l i x).1 h
  exact List.mem_of_getElem? h

/-- **The ground truth does not depend on the frame of the map.** -/
theorem generate_move {g : PoseGraph} (hg : ProperGraph g) {m : Rigid3} (hm : m.Proper) (minCovered meters radians : ℝ) :
    generate (moveGraph m g) minCovered meters radians = generate g minCovered meters radians := by
  unfold generate moveGraph
  simp only [Option.bind_eq_bind, List.getElem?_map]
  cases ht : g.trajectories[0]? with
  | none => rfl
  | some t =>
    have hp := hg.trajectories t (List.mem_of_getElem? ht)
    simp only [Option.map_some, Option.bind_some]
    have h1 : coveredDistance (moveTrajectory m t) = coveredDistance t := by
      unfold coveredDistance moveTrajectory
      cases hn : t.nodes with
      | nil => rfl
      | cons n l =>
        have hp' := hp.nodes
        rw [hn] at hp'
        simp only [List.map_cons]
        rw [coveredLoop_move hm l n.pose 0 (hp' n (by simp)) fun x hx => hp' x (List.mem_cons_of_mem _ hx)]
    rw [h1]
    have h2 : ∀ covered reps c, relation (moveTrajectory m t) covered reps minCovered meters radians c = relation t covered reps minCovered meters radians c := by
      intro covered reps c
      unfold relation moveTrajectory
      simp only [at?_map]
      split
      · rfl
      · split
        · split
          · rfl
          · cases at? reps c.submap with
            | none => rfl
            | some representative =>
              simp only [Option.bind_eq_bind, Option.bind_some]
              cases at? covered c.node with
              | none => rfl
              | some a =>
                simp only [Option.bind_some]
                cases at? covered representative with
                | none => rfl
                | some b =>
                  simp only [Option.bind_some]
                  split
                  · rfl
                  · cases e1 : at? t.nodes representative with
                    | none => rfl
                    | some n1 =>
                      simp only [Option.map_some, Option.bind_some]
                      cases e2 : at? t.nodes c.node with
                      | none => rfl
                      | some n2 =>
                        simp only [Option.map_some, Option.bind_some]
                        cases e3 : at? t.submaps c.submap with
                        | none => rfl
                        | some sm =>
                          simp only [Option.map_some, Option.bind_some]
                          rw [between_move hm (hp.nodes _ (at?_mem e1)) (hp.nodes _ (at?_mem e2)), between_move hm (hp.nodes _ (at?_mem e1)) (hp.submaps _ (at?_mem e3))]
        · rfl
    have h3 : ∀ covered reps cs, relations (moveTrajectory m t) covered reps minCovered meters radians cs = relations t covered reps minCovered meters radians cs := by
      intro covered reps cs
      induction cs with
      | nil => rfl
      | cons c cs ih => simp only [relations, h2, ih]
    simp only [h3]

end Verif.GroundTruth
