import Verif.MachineInts
import Verif.Props.RayMask
import Verif.Props.Grid2DGrow
import Verif.Props.RangeDataInserter2D

/-!
# C110: Machine integers suffice for rays, and up to which size for grids
-/

namespace Verif.Machine

open Verif.Ray (Px MaskOk)

theorem i32_of {v : Int} (h1 : -2147483648 ≤ v) (h2 : v ≤ 2147483647) : i32 v = some v := if_pos ⟨h1, h2⟩

theorem i64_of {v : Int} (h1 : -9223372036854775808 ≤ v) (h2 : v ≤ 9223372036854775807) : i64 v = some v := if_pos ⟨h1, h2⟩

/-! ### Pushing pixels -/

theorem head_push (acc : List Px) (c : Px) : (Ray.push acc c).head? = some c := by
  unfold Ray.push
  split
  · assumption
  · rfl

theorem push_sim {acc : List Px} {b c : Px} (hb : acc.head? = some b) (h1 : |b.1 - c.1| ≤ 1) (h2 : |b.2 - c.2| ≤ 1) :
    push acc c = some (Ray.push acc c) := by
  unfold push
  rw [hb]
  have a1 := abs_le.1 h1
  have a2 := abs_le.1 h2
  have p1 := abs_nonneg (b.1 - c.1)
  have p2 := abs_nonneg (b.2 - c.2)
  simp only [Option.bind_eq_bind]
  rw [i32_of (by omega) (by omega), Option.bind_some, i32_of (by omega) (by omega), Option.bind_some, i32_of (by omega) (by omega),
    Option.bind_some, i32_of (by omega) (by omega), Option.bind_some, i32_of (by omega) (by omega), Option.bind_some]
  unfold Ray.push
  rw [hb]
  by_cases h : b = c
  · subst h
    simp
  · rw [if_neg, if_neg]
    · simpa using h
    · intro h0
      apply h
      have z1 : |b.1 - c.1| = 0 := by omega
      have z2 : |b.2 - c.2| = 0 := by omega
      rw [abs_eq_zero] at z1 z2
      exact Prod.ext (by omega) (by omega)

/-! ### Vertical lines -/

theorem vertical_sim {x endY : Int} (he : endY ≤ 2147483646) : ∀ (n : Nat) (y : Int) (acc mask : List Px), (∃ b, acc.head? = some b ∧ b.1 = x ∧ |b.2 - y| ≤ 1) →
    0 ≤ y → Ray.vertical x endY n y acc = some mask → vertical x endY n y acc = some mask := by
  intro n
  induction n with
  | zero => intro y acc mask _ _ h; simp [Ray.vertical] at h
  | succ n ih =>
    rintro y acc mask ⟨b, hb, hx, hy⟩ h0 h
    rw [Ray.vertical] at h
    rw [vertical]
    split at h
    · next hle =>
      rw [if_pos hle]
      simp only [Option.bind_eq_bind]
      rw [push_sim hb (by simp [hx]) hy, Option.bind_some, i32_of (by omega) (by omega), Option.bind_some]
      exact ih _ _ _ ⟨_, head_push _ _, rfl, by simp⟩ (by omega) h
    · next hle => rw [if_neg hle]; exact h

/-! ### The inner loops -/

theorem climb_facts {D x : Int} (hD : 0 < D) : ∀ (n : Nat) (sub y : Int) (acc : List Px) (sub' y' : Int) (acc' : List Px),
    Ray.climb D x n sub y acc = some (sub', y', acc') → acc.head? = some (x, y) → 0 < sub →
    y ≤ y' ∧ 0 < sub' ∧ sub' ≤ D ∧ acc'.head? = some (x, y') := by
  intro n
  induction n with
  | zero => intro sub y acc _ _ _ h; simp [Ray.climb] at h
  | succ n ih =>
    intro sub y acc sub' y' acc' h hh hs
    rw [Ray.climb] at h
    split at h
    · obtain ⟨a, b, c, d⟩ := ih _ _ _ _ _ _ h (head_push _ _) (by omega)
      exact ⟨by omega, b, c, d⟩
    · simp only [Option.some.injEq, Prod.mk.injEq] at h
      obtain ⟨rfl, rfl, rfl⟩ := h
      exact ⟨le_refl _, hs, by omega, hh⟩

theorem climb_sim {D x : Int} (hD : 0 < D) : ∀ (n : Nat) (sub y : Int) (acc : List Px) (sub' y' : Int) (acc' : List Px),
    Ray.climb D x n sub y acc = some (sub', y', acc') → acc.head? = some (x, y) → 0 < sub → sub ≤ 9223372036854775807 → 0 ≤ y → y' ≤ 2147483647 →
    climb D x n sub y acc = some (sub', y', acc') := by
  intro n
  induction n with
  | zero => intro sub y acc _ _ _ h; simp [Ray.climb] at h
  | succ n ih =>
    intro sub y acc sub' y' acc' h hh hs hm h0 hy
    rw [Ray.climb] at h
    rw [climb]
    split at h
    · next hgt =>
      have hf := climb_facts hD _ _ _ _ _ _ _ h (head_push _ _) (by omega)
      rw [if_pos hgt]
      simp only [Option.bind_eq_bind]
      rw [i64_of (by omega) (by omega), Option.bind_some, i32_of (by omega) (by omega), Option.bind_some,
        push_sim hh (by simp) (by simp), Option.bind_some]
      exact ih _ _ _ _ _ _ h (head_push _ _) (by omega) (by omega) (by omega) hy
    · next hgt => rw [if_neg hgt]; exact h

theorem drop_facts {D x : Int} (hD : 0 < D) : ∀ (n : Nat) (sub y : Int) (acc : List Px) (sub' y' : Int) (acc' : List Px),
    Ray.drop D x n sub y acc = some (sub', y', acc') → acc.head? = some (x, y) → sub ≤ D →
    y' ≤ y ∧ 0 ≤ sub' ∧ sub' ≤ D ∧ acc'.head? = some (x, y') := by
  intro n
  induction n with
  | zero => intro sub y acc _ _ _ h; simp [Ray.drop] at h
  | succ n ih =>
    intro sub y acc sub' y' acc' h hh hs
    rw [Ray.drop] at h
    split at h
    · obtain ⟨a, b, c, d⟩ := ih _ _ _ _ _ _ h (head_push _ _) (by omega)
      exact ⟨by omega, b, c, d⟩
    · simp only [Option.some.injEq, Prod.mk.injEq] at h
      obtain ⟨rfl, rfl, rfl⟩ := h
      exact ⟨le_refl _, by omega, hs, hh⟩

theorem drop_sim {D x : Int} (hD : 0 < D) (hD' : D ≤ 9223372036854775807) : ∀ (n : Nat) (sub y : Int) (acc : List Px) (sub' y' : Int) (acc' : List Px),
    Ray.drop D x n sub y acc = some (sub', y', acc') → acc.head? = some (x, y) → sub ≤ D → -9223372036854775808 ≤ sub → y ≤ 2147483647 → 0 ≤ y' →
    drop D x n sub y acc = some (sub', y', acc') := by
  intro n
  induction n with
  | zero => intro sub y acc _ _ _ h; simp [Ray.drop] at h
  | succ n ih =>
    intro sub y acc sub' y' acc' h hh hs hm h0 hy
    rw [Ray.drop] at h
    rw [drop]
    split at h
    · next hgt =>
      have hf := drop_facts hD _ _ _ _ _ _ _ h (head_push _ _) (by omega)
      rw [if_pos hgt]
      simp only [Option.bind_eq_bind]
      rw [i64_of (by omega) (by omega), Option.bind_some, i32_of (by omega) (by omega), Option.bind_some,
        push_sim hh (by simp) (by simp), Option.bind_some]
      exact ih _ _ _ _ _ _ h (head_push _ _) (by omega) (by omega) (by omega) hy
    · next hgt => rw [if_neg hgt]; exact h

/-! ### The outer loops -/

/-- The last pixel is next to the current one. -/
def Near (acc : List Px) (x y : Int) : Prop := ∃ b, acc.head? = some b ∧ |b.1 - x| ≤ 1 ∧ |b.2 - y| ≤ 1

theorem ascend_facts {D step endX : Int} {m : Nat} (hD : 0 < D) (hst : 0 < step) : ∀ (n : Nat) (x y sub : Int) (acc : List Px) (sub' y' : Int) (acc' : List Px),
    Ray.ascend D step endX m n x y sub acc = some (sub', y', acc') → 0 < sub →
    x < endX ∧ y ≤ y' ∧ 0 ≤ sub' ∧ sub' < D ∧ Near acc' endX y' := by
  intro n
  induction n with
  | zero => intro x y sub acc _ _ _ h; simp [Ray.ascend] at h
  | succ n ih =>
    intro x y sub acc sub' y' acc' h hs
    rw [Ray.ascend] at h
    simp only [Option.bind_eq_bind, Option.bind_eq_some_iff] at h
    obtain ⟨⟨s1, y1, a1⟩, hc, h⟩ := h
    obtain ⟨f1, f2, f3, f4⟩ := climb_facts hD _ _ _ _ _ _ _ hc (head_push _ _) hs
    dsimp only at h
    by_cases hd : s1 = D
    · simp only [hd, if_true] at h
      split at h
      · next he =>
        simp only [Option.some.injEq, Prod.mk.injEq] at h
        obtain ⟨rfl, rfl, rfl⟩ := h
        exact ⟨by omega, by omega, by omega, by omega, _, f4, abs_le.2 (by constructor <;> (dsimp only; omega)), abs_le.2 (by constructor <;> (dsimp only; omega))⟩
      · obtain ⟨g1, g2, g3⟩ := ih _ _ _ _ _ _ _ h (by omega)
        exact ⟨by omega, by omega, g3⟩
    · simp only [hd, if_false] at h
      split at h
      · next he =>
        simp only [Option.some.injEq, Prod.mk.injEq] at h
        obtain ⟨rfl, rfl, rfl⟩ := h
        exact ⟨by omega, by omega, by omega, by omega, _, f4, abs_le.2 (by constructor <;> (dsimp only; omega)), by simp⟩
      · obtain ⟨g1, g2, g3⟩ := ih _ _ _ _ _ _ _ h (by omega)
        exact ⟨by omega, by omega, g3⟩

theorem advance_sim {dy s sub : Int} (h1 : -2147483647 ≤ dy) (h2 : dy ≤ 2147483647) (hs : 0 < s) (hs' : s < 1073741824)
    (h3 : -4611686018427387904 ≤ sub) (h4 : sub ≤ 4611686018427387904) : advance dy s sub = some (sub + dy * 2 * s) ∧
    -4611686018427387904 ≤ dy * 2 * s ∧ dy * 2 * s ≤ 4611686018427387903 := by
  have a : dy * 2 * s ≤ 4611686018427387903 := by nlinarith
  have b : -4611686018427387904 ≤ dy * 2 * s := by nlinarith
  refine ⟨?_, b, a⟩
  unfold advance
  simp only [Option.bind_eq_bind]
  rw [i64_of (by omega) (by omega), Option.bind_some, i64_of (by omega) (by omega), Option.bind_some, i64_of (by omega) (by omega)]

set_option maxHeartbeats 1000000 in
theorem ascend_sim {D dy s endX : Int} {m : Nat} (hD : 0 < D) (hD' : D ≤ 4611686018427387904) (h1 : 0 < dy) (h2 : dy ≤ 2147483647) (hs : 0 < s)
    (hs' : s < 1073741824) (hE : endX ≤ 2147483647) : ∀ (n : Nat) (x y sub : Int) (acc : List Px) (sub' y' : Int) (acc' : List Px),
    Ray.ascend D (dy * 2 * s) endX m n x y sub acc = some (sub', y', acc') → 0 < sub → sub ≤ 9223372036854775807 → 0 ≤ x → 0 ≤ y → y' ≤ 2147483647 →
    Near acc x y → ascend D dy s endX m n x y sub acc = some (sub', y', acc') := by
  have hst : 0 < dy * 2 * s := by positivity
  intro n
  induction n with
  | zero => intro x y sub acc _ _ _ h; simp [Ray.ascend] at h
  | succ n ih =>
    rintro x y sub acc sub' y' acc' h hsub hsub' hx hy hy' ⟨b, hb, b1, b2⟩
    have hfx := ascend_facts hD hst _ _ _ _ _ _ _ _ h hsub
    rw [Ray.ascend] at h
    simp only [Option.bind_eq_bind, Option.bind_eq_some_iff] at h
    obtain ⟨⟨s1, y1, a1⟩, hc, h⟩ := h
    obtain ⟨f1, f2, f3, f4⟩ := climb_facts hD _ _ _ _ _ _ _ hc (head_push _ _) hsub
    dsimp only at h
    have hy1 : y1 ≤ y' ∧ (s1 = D → y1 + 1 ≤ y') := by
      by_cases hd : s1 = D
      · simp only [hd, if_true] at h
        split at h
        · simp only [Option.some.injEq, Prod.mk.injEq] at h
          obtain ⟨rfl, rfl, rfl⟩ := h
          omega
        · obtain ⟨g1, g2, g3⟩ := ascend_facts hD hst _ _ _ _ _ _ _ _ h (by omega)
          omega
      · simp only [hd, if_false] at h
        split at h
        · simp only [Option.some.injEq, Prod.mk.injEq] at h
          obtain ⟨rfl, rfl, rfl⟩ := h
          omega
        · obtain ⟨g1, g2, g3⟩ := ascend_facts hD hst _ _ _ _ _ _ _ _ h (by omega)
          omega
    rw [ascend]
    simp only [Option.bind_eq_bind]
    rw [push_sim hb b1 b2, Option.bind_some, climb_sim hD _ _ _ _ _ _ _ hc (head_push _ _) hsub hsub' hy (by omega), Option.bind_some,
      i32_of (by omega) (by omega), Option.bind_some]
    dsimp only
    by_cases hd : s1 = D
    · have ht : topBorder D s1 y1 = some (s1 - D, y1 + 1) := by
        unfold topBorder
        rw [if_pos hd]
        simp only [Option.bind_eq_bind]
        rw [i64_of (by omega) (by omega), Option.bind_some, i32_of (by omega) (by omega), Option.bind_some]
      rw [ht, Option.bind_some]
      simp only [hd, if_true] at h
      split at h
      · next he => rw [if_pos he, ← h, hd]
      · next he =>
        obtain ⟨ha, hb1, hb2⟩ := advance_sim (sub := s1 - D) (by omega) h2 hs hs' (by omega) (by omega)
        rw [if_neg he]
        dsimp only
        rw [ha, Option.bind_some]
        subst hd
        exact ih _ _ _ _ _ _ _ h (by omega) (by omega) (by omega) (by omega) hy' ⟨_, f4, abs_le.2 (by constructor <;> (dsimp only; omega)),
          abs_le.2 (by constructor <;> (dsimp only; omega))⟩
    · have ht : topBorder D s1 y1 = some (s1, y1) := if_neg hd
      rw [ht, Option.bind_some]
      simp only [hd, if_false] at h
      split at h
      · next he => rw [if_pos he, ← h]
      · next he =>
        obtain ⟨ha, hb1, hb2⟩ := advance_sim (sub := s1) (by omega) h2 hs hs' (by omega) (by omega)
        rw [if_neg he]
        dsimp only
        rw [ha, Option.bind_some]
        exact ih _ _ _ _ _ _ _ h (by omega) (by omega) (by omega) (by omega) hy' ⟨_, f4, abs_le.2 (by constructor <;> (dsimp only; omega)), by simp⟩

theorem descend_facts {D step endX : Int} {m : Nat} (hD : 0 < D) (hst : step ≤ 0) : ∀ (n : Nat) (x y sub : Int) (acc : List Px) (sub' y' : Int) (acc' : List Px),
    Ray.descend D step endX m n x y sub acc = some (sub', y', acc') → sub ≤ D →
    x < endX ∧ y' ≤ y ∧ 0 < sub' ∧ sub' ≤ D ∧ Near acc' endX y' := by
  intro n
  induction n with
  | zero => intro x y sub acc _ _ _ h; simp [Ray.descend] at h
  | succ n ih =>
    intro x y sub acc sub' y' acc' h hs
    rw [Ray.descend] at h
    simp only [Option.bind_eq_bind, Option.bind_eq_some_iff] at h
    obtain ⟨⟨s1, y1, a1⟩, hc, h⟩ := h
    obtain ⟨f1, f2, f3, f4⟩ := drop_facts hD _ _ _ _ _ _ _ hc (head_push _ _) hs
    dsimp only at h
    by_cases hd : s1 = 0
    · simp only [hd, if_true] at h
      split at h
      · next he =>
        simp only [Option.some.injEq, Prod.mk.injEq] at h
        obtain ⟨rfl, rfl, rfl⟩ := h
        exact ⟨by omega, by omega, by omega, by omega, _, f4, abs_le.2 (by constructor <;> (dsimp only; omega)), abs_le.2 (by constructor <;> (dsimp only; omega))⟩
      · obtain ⟨g1, g2, g3⟩ := ih _ _ _ _ _ _ _ h (by omega)
        exact ⟨by omega, by omega, g3⟩
    · simp only [hd, if_false] at h
      split at h
      · next he =>
        simp only [Option.some.injEq, Prod.mk.injEq] at h
        obtain ⟨rfl, rfl, rfl⟩ := h
        exact ⟨by omega, by omega, by omega, by omega, _, f4, abs_le.2 (by constructor <;> (dsimp only; omega)), by simp⟩
      · obtain ⟨g1, g2, g3⟩ := ih _ _ _ _ _ _ _ h (by omega)
        exact ⟨by omega, by omega, g3⟩

set_option maxHeartbeats 1000000 in
theorem descend_sim {D dy s endX : Int} {m : Nat} (hD : 0 < D) (hD' : D ≤ 4611686018427387904) (h1 : dy ≤ 0) (h2 : -2147483647 ≤ dy) (hs : 0 < s)
    (hs' : s < 1073741824) (hE : endX ≤ 2147483647) : ∀ (n : Nat) (x y sub : Int) (acc : List Px) (sub' y' : Int) (acc' : List Px),
    Ray.descend D (dy * 2 * s) endX m n x y sub acc = some (sub', y', acc') → sub ≤ D → -9223372036854775808 ≤ sub → 0 ≤ x → y ≤ 2147483647 → 0 ≤ y' →
    Near acc x y → descend D dy s endX m n x y sub acc = some (sub', y', acc') := by
  have hst : dy * 2 * s ≤ 0 := by nlinarith
  intro n
  induction n with
  | zero => intro x y sub acc _ _ _ h; simp [Ray.descend] at h
  | succ n ih =>
    rintro x y sub acc sub' y' acc' h hsub hsub' hx hy hy' ⟨b, hb, b1, b2⟩
    have hfx := descend_facts hD hst _ _ _ _ _ _ _ _ h hsub
    rw [Ray.descend] at h
    simp only [Option.bind_eq_bind, Option.bind_eq_some_iff] at h
    obtain ⟨⟨s1, y1, a1⟩, hc, h⟩ := h
    obtain ⟨f1, f2, f3, f4⟩ := drop_facts hD _ _ _ _ _ _ _ hc (head_push _ _) hsub
    dsimp only at h
    have hy1 : y' ≤ y1 ∧ (s1 = 0 → y' ≤ y1 - 1) := by
      by_cases hd : s1 = 0
      · simp only [hd, if_true] at h
        split at h
        · simp only [Option.some.injEq, Prod.mk.injEq] at h
          obtain ⟨rfl, rfl, rfl⟩ := h
          omega
        · obtain ⟨g1, g2, g3⟩ := descend_facts hD hst _ _ _ _ _ _ _ _ h (by omega)
          omega
      · simp only [hd, if_false] at h
        split at h
        · simp only [Option.some.injEq, Prod.mk.injEq] at h
          obtain ⟨rfl, rfl, rfl⟩ := h
          omega
        · obtain ⟨g1, g2, g3⟩ := descend_facts hD hst _ _ _ _ _ _ _ _ h (by omega)
          omega
    rw [descend]
    simp only [Option.bind_eq_bind]
    rw [push_sim hb b1 b2, Option.bind_some, drop_sim hD (by omega) _ _ _ _ _ _ _ hc (head_push _ _) hsub hsub' hy (by omega), Option.bind_some,
      i32_of (by omega) (by omega), Option.bind_some]
    dsimp only
    by_cases hd : s1 = 0
    · have ht : bottomBorder D s1 y1 = some (s1 + D, y1 - 1) := by
        unfold bottomBorder
        rw [if_pos hd]
        simp only [Option.bind_eq_bind]
        rw [i64_of (by omega) (by omega), Option.bind_some, i32_of (by omega) (by omega), Option.bind_some]
      rw [ht, Option.bind_some]
      simp only [hd, if_true] at h
      split at h
      · next he => rw [if_pos he, ← h, hd]
      · next he =>
        obtain ⟨ha, hb1, hb2⟩ := advance_sim (sub := s1 + D) h2 (by omega) hs hs' (by omega) (by omega)
        rw [if_neg he]
        dsimp only
        rw [ha, Option.bind_some]
        subst hd
        exact ih _ _ _ _ _ _ _ h (by omega) (by omega) (by omega) (by omega) hy' ⟨_, f4, abs_le.2 (by constructor <;> (dsimp only; omega)),
          abs_le.2 (by constructor <;> (dsimp only; omega))⟩
    · have ht : bottomBorder D s1 y1 = some (s1, y1) := if_neg hd
      rw [ht, Option.bind_some]
      simp only [hd, if_false] at h
      split at h
      · next he => rw [if_pos he, ← h]
      · next he =>
        obtain ⟨ha, hb1, hb2⟩ := advance_sim (sub := s1) h2 (by omega) hs hs' (by omega) (by omega)
        rw [if_neg he]
        dsimp only
        rw [ha, Option.bind_some]
        exact ih _ _ _ _ _ _ _ h (by omega) (by omega) (by omega) (by omega) hy' ⟨_, f4, abs_le.2 (by constructor <;> (dsimp only; omega)), by simp⟩

/-! ### Rays -/

theorem near_self (x y : Int) : Near [(x, y)] x y := ⟨(x, y), rfl, by simp, by simp⟩

theorem prod_bound {a f : Int} (h1 : -2147483647 ≤ a) (h2 : a ≤ 2147483647) (h3 : 0 ≤ f) (h4 : f ≤ 2147483647) :
    -4611686014132420609 ≤ a * f ∧ a * f ≤ 4611686014132420609 := by
  constructor <;> nlinarith

/-- In this range of scales neither of the constants of the line overflows. -/
theorem constants {s dx dy u v w : Int} (hs : 2 ≤ s) (hs' : s < 1073741824) (hx : 0 < dx) (hx' : dx ≤ 2147483647) (hy : -2147483647 ≤ dy)
    (hy' : dy ≤ 2147483647) (hu : 0 ≤ u) (hu' : u < s) (hv : 0 ≤ v) (hv' : v < s) (hw : 0 ≤ w) (hw' : w < s) :
    0 < 2 * s * dx ∧ 2 * s * dx ≤ 4611686014132420609 ∧ 0 < (2 * u + 1) * dx ∧ (2 * u + 1) * dx < 2 * s * dx ∧
    -4611686014132420609 ≤ dy * (2 * s - 2 * v - 1) ∧ dy * (2 * s - 2 * v - 1) ≤ 4611686014132420609 ∧
    -4611686014132420609 ≤ dy * (2 * w + 1) ∧ dy * (2 * w + 1) ≤ 4611686014132420609 := by
  obtain ⟨a1, a2⟩ := prod_bound (a := 2 * s) (f := dx) (by omega) (by omega) hx.le hx'
  obtain ⟨b1, b2⟩ := prod_bound (a := dy) (f := 2 * s - 2 * v - 1) hy hy' (by omega) (by omega)
  obtain ⟨c1, c2⟩ := prod_bound (a := dy) (f := 2 * w + 1) hy hy' (by omega) (by omega)
  refine ⟨by positivity, a2, by positivity, ?_, b1, b2, c1, c2⟩
  exact mul_lt_mul_of_pos_right (by omega) hx

set_option maxHeartbeats 1000000 in
theorem up_sim {D dy s endX endY last x0 y0 sub s1 y1 s2 y2 : Int} {n : Nat} {a1 a2 : List Px} (hD : 0 < D) (hD' : D ≤ 4611686014132420609)
    (h1 : 0 < dy) (h2 : dy ≤ 2147483647) (hs : 0 < s) (hs' : s < 1073741824) (hE : endX ≤ 2147483647) (hY : endY ≤ 2147483647) (hx : 0 ≤ x0) (hy : 0 ≤ y0)
    (hsub : 0 < sub) (hsub' : sub ≤ 9223372036854775807) (hl : 0 < dy * last) (hl' : dy * last ≤ 4611686014132420609)
    (ha : Ray.ascend D (dy * 2 * s) endX n n x0 y0 sub [(x0, y0)] = some (s1, y1, a1))
    (hc : Ray.climb D endX n (s1 + dy * last) y1 (Ray.push a1 (endX, y1)) = some (s2, y2, a2)) (hfin : s2 ≠ D ∧ y2 = endY) :
    (ascend D dy s endX n n x0 y0 sub [(x0, y0)]).bind (finishUp D dy endX endY last n) = some a2.reverse := by
  obtain ⟨g1, g2, g3, g4, bb, hb1, hb2, hb3⟩ := ascend_facts hD (by positivity) _ _ _ _ _ _ _ _ ha hsub
  obtain ⟨k1, k2, k3, k4⟩ := climb_facts hD _ _ _ _ _ _ _ hc (head_push _ _) (by omega)
  rw [ascend_sim hD (by omega) h1 h2 hs hs' hE _ _ _ _ _ _ _ _ ha hsub hsub' hx hy (by omega) (near_self _ _), Option.bind_some]
  unfold finishUp
  dsimp only
  simp only [Option.bind_eq_bind]
  rw [i64_of (by omega) (by omega), Option.bind_some, i64_of (by omega) (by omega), Option.bind_some, push_sim hb1 hb2 hb3, Option.bind_some,
    climb_sim hD _ _ _ _ _ _ _ hc (head_push _ _) (by omega) (by omega) (by omega) (by omega), Option.bind_some]
  dsimp only
  rw [if_pos hfin]

set_option maxHeartbeats 1000000 in
theorem down_sim {D dy s endX endY last x0 y0 sub s1 y1 s2 y2 : Int} {n : Nat} {a1 a2 : List Px} (hD : 0 < D) (hD' : D ≤ 4611686014132420609)
    (h1 : dy ≤ 0) (h2 : -2147483647 ≤ dy) (hs : 0 < s) (hs' : s < 1073741824) (hE : endX ≤ 2147483647) (hY : 0 ≤ endY) (hx : 0 ≤ x0) (hy : y0 ≤ 2147483647)
    (hsub : sub ≤ D) (hsub' : -9223372036854775808 ≤ sub) (hl : dy * last ≤ 0) (hl' : -4611686014132420609 ≤ dy * last)
    (ha : Ray.descend D (dy * 2 * s) endX n n x0 y0 sub [(x0, y0)] = some (s1, y1, a1))
    (hc : Ray.drop D endX n (s1 + dy * last) y1 (Ray.push a1 (endX, y1)) = some (s2, y2, a2)) (hfin : s2 ≠ 0 ∧ y2 = endY) :
    (descend D dy s endX n n x0 y0 sub [(x0, y0)]).bind (finishDown D dy endX endY last n) = some a2.reverse := by
  obtain ⟨g1, g2, g3, g4, bb, hb1, hb2, hb3⟩ := descend_facts hD (by nlinarith) _ _ _ _ _ _ _ _ ha hsub
  obtain ⟨k1, k2, k3, k4⟩ := drop_facts hD _ _ _ _ _ _ _ hc (head_push _ _) (by omega)
  rw [descend_sim hD (by omega) h1 h2 hs hs' hE _ _ _ _ _ _ _ _ ha hsub hsub' hx hy (by omega) (near_self _ _), Option.bind_some]
  unfold finishDown
  dsimp only
  simp only [Option.bind_eq_bind]
  rw [i64_of (by omega) (by omega), Option.bind_some, i64_of (by omega) (by omega), Option.bind_some, push_sim hb1 hb2 hb3, Option.bind_some,
    drop_sim hD (by omega) _ _ _ _ _ _ _ hc (head_push _ _) (by omega) (by omega) (by omega) (by omega), Option.bind_some]
  dsimp only
  rw [if_pos hfin]

set_option maxHeartbeats 1000000 in
theorem slanted_sim {n : Nat} {b e : Px} {s : Int} {mask : List Px} (hs : 2 ≤ s) (hs' : s < 1073741824) (hb : 0 ≤ b.1 ∧ 0 ≤ b.2 ∧ 0 ≤ e.2) (hbe : b.1 ≤ e.1)
    (hm : b.2 ≤ 2147483647 ∧ e.1 ≤ 2147483647 ∧ e.2 ≤ 2147483647) (hx : ¬ b.1 / s = e.1 / s) (h : Ray.maskOrdered n b e s = some mask) :
    slanted n b e s = some mask := by
  unfold Ray.maskOrdered at h
  rw [if_pos hb, if_neg hx] at h
  dsimp only at h
  have hne : b.1 ≠ e.1 := fun h => hx (by rw [h])
  have hsp : 0 < s := by omega
  have u1 := Int.emod_nonneg b.2 hsp.ne'
  have u2 := Int.emod_lt_of_pos b.2 hsp
  have v1 := Int.emod_nonneg b.1 hsp.ne'
  have v2 := Int.emod_lt_of_pos b.1 hsp
  have w1 := Int.emod_nonneg e.1 hsp.ne'
  have w2 := Int.emod_lt_of_pos e.1 hsp
  have d1 : 0 ≤ b.1 / s := Int.ediv_nonneg hb.1 hsp.le
  have d2 : 0 ≤ b.2 / s := Int.ediv_nonneg hb.2.1 hsp.le
  have d3 : 0 ≤ e.2 / s := Int.ediv_nonneg hb.2.2 hsp.le
  have d4 : e.2 / s ≤ e.2 := Int.ediv_le_self _ hb.2.2
  have d5 : b.2 / s ≤ b.2 := Int.ediv_le_self _ hb.2.1
  have d6 : max b.1 e.1 / s ≤ max b.1 e.1 := Int.ediv_le_self _ (by omega)
  have d7 : max b.1 e.1 ≤ 2147483647 := by omega
  obtain ⟨c1, c2, c3, c4, c5, c6, c7, c8⟩ := constants (dx := e.1 - b.1) (dy := e.2 - b.2) hs hs' (by omega) (by omega) (by omega) (by omega) u1 u2 v1 v2 w1 w2
  have heq : slanted n b e s = walk (2 * s * (e.1 - b.1)) (e.2 - b.2) s (2 * (e.1 % s) + 1) n b e
      ((2 * (b.2 % s) + 1) * (e.1 - b.1) + (e.2 - b.2) * (2 * s - 2 * (b.1 % s) - 1)) := by
    unfold slanted
    simp only [Option.bind_eq_bind]
    rw [i32_of (by omega) (by omega), Option.bind_some, i32_of (by omega) (by omega), Option.bind_some, i32_of (by omega) (by omega), Option.bind_some,
      i64_of (by omega) (by omega), Option.bind_some, i32_of (by omega) (by omega), Option.bind_some, i32_of (by omega) (by omega), Option.bind_some,
      i64_of (by omega) (by omega), Option.bind_some, i32_of (by omega) (by omega), Option.bind_some, i32_of (by omega) (by omega), Option.bind_some,
      i32_of (by omega) (by omega), Option.bind_some, i32_of (by omega) (by omega), Option.bind_some, i32_of (by omega) (by omega), Option.bind_some,
      i64_of (by omega) (by omega), Option.bind_some, i64_of (by omega) (by omega), Option.bind_some]
  rw [heq]
  unfold walk
  split at h
  · next hdy =>
    rw [if_pos hdy]
    have hp : 0 < (e.2 - b.2) * (2 * s - 2 * (b.1 % s) - 1) := mul_pos hdy (by omega)
    have hq : 0 < (e.2 - b.2) * (2 * (e.1 % s) + 1) := mul_pos hdy (by omega)
    simp only [Option.bind_eq_bind, Option.bind_eq_some_iff] at h
    obtain ⟨⟨s1, y1, a1⟩, ha, ⟨s2, y2, a2⟩, hc, h⟩ := h
    dsimp only at hc h
    split at h
    · next hfin =>
      rw [Option.some.injEq] at h
      rw [← h]
      exact up_sim c1 c2 hdy (by omega) hsp hs' (by omega) (by omega) d1 d2 (by omega) (by omega) hq c8 ha hc hfin
    · cases h
  · next hdy =>
    rw [if_neg hdy]
    have hp : (e.2 - b.2) * (2 * s - 2 * (b.1 % s) - 1) ≤ 0 := mul_nonpos_of_nonpos_of_nonneg (by omega) (by omega)
    have hq : (e.2 - b.2) * (2 * (e.1 % s) + 1) ≤ 0 := mul_nonpos_of_nonpos_of_nonneg (by omega) (by omega)
    simp only [Option.bind_eq_bind, Option.bind_eq_some_iff] at h
    obtain ⟨⟨s1, y1, a1⟩, ha, ⟨s2, y2, a2⟩, hc, h⟩ := h
    dsimp only at hc h
    split at h
    · next hfin =>
      rw [Option.some.injEq] at h
      rw [← h]
      exact down_sim c1 c2 (by omega) (by omega) hsp hs' (by omega) d3 d1 (by omega) (by omega) (by omega) hq c7 ha hc hfin
    · cases h

theorem ordered_sim {n : Nat} {b e : Px} {s : Int} {mask : List Px} (hs : 2 ≤ s) (hs' : s < 1073741824) (hbe : b.1 ≤ e.1)
    (hm : b.2 ≤ 2147483647 ∧ e.1 ≤ 2147483647 ∧ e.2 ≤ 2147483647) (h : Ray.maskOrdered n b e s = some mask) :
    maskOrdered n b e s = some mask := by
  by_cases hb : 0 ≤ b.1 ∧ 0 ≤ b.2 ∧ 0 ≤ e.2
  · by_cases hx : b.1 / s = e.1 / s
    · unfold maskOrdered
      unfold Ray.maskOrdered at h
      rw [if_pos hb, if_pos hx] at h ⊢
      simp only [Option.bind_eq_bind, Option.bind_eq_some_iff, Option.some.injEq] at h
      obtain ⟨acc, ha, h⟩ := h
      have h1 : max b.2 e.2 / s ≤ 2147483646 := by
        rw [← Int.lt_add_one_iff, Int.ediv_lt_iff_lt_mul (by omega)]
        omega
      rw [vertical_sim h1 _ _ _ _ ⟨(b.1 / s, min b.2 e.2 / s), rfl, rfl, by simp⟩ (Int.ediv_nonneg (by omega) (by omega)) ha, Option.map_some, h]
    · unfold maskOrdered
      rw [if_pos hb, if_neg hx]
      exact slanted_sim hs hs' hb hbe hm hx h
  · unfold Ray.maskOrdered at h
    rw [if_neg hb] at h
    cases h

/-- For all end points that an `int` can hold and all scales from 2 to 2^30 - 1 no operation on `int` or `int64` overflows: the machine
computes the same as with unbounded integers. -/
theorem ray_no_overflow {n : Nat} {b e : Px} {s : Int} {mask : List Px} (hs : 2 ≤ s) (hs' : s < 1073741824)
    (hb : b.1 ≤ 2147483647 ∧ b.2 ≤ 2147483647) (he : e.1 ≤ 2147483647 ∧ e.2 ≤ 2147483647) (h : Ray.rayToPixelMask n b e s = some mask) :
    rayToPixelMask n b e s = some mask := by
  unfold rayToPixelMask
  unfold Ray.rayToPixelMask at h
  rw [if_neg (by omega)] at h ⊢
  split at h
  · next hg => rw [if_pos hg]; exact ordered_sim hs hs' (by omega) ⟨he.2, hb.1, hb.2⟩ h
  · next hg => rw [if_neg hg]; exact ordered_sim hs hs' (by omega) ⟨hb.2, he.1, he.2⟩ h

/-- So the mask of C20 is what the machine computes. -/
theorem machine_ray_exact {s : Int} (hs : 2 ≤ s) (hs' : s < 1073741824) (b e : Px) (hb : 0 ≤ b.1 ∧ 0 ≤ b.2) (he : 0 ≤ e.1 ∧ 0 ≤ e.2)
    (hb' : b.1 ≤ 2147483647 ∧ b.2 ≤ 2147483647) (he' : e.1 ≤ 2147483647 ∧ e.2 ≤ 2147483647) :
    ∃ N mask, (∀ n, N ≤ n → rayToPixelMask n b e s = some mask) ∧ MaskOk s b e mask := by
  obtain ⟨N, mask, h, ok⟩ := Ray.ray_mask_exact s (by omega) b e hb he
  exact ⟨N, mask, fun n hn => ray_no_overflow hs hs' hb' he' (h n hn), ok⟩

/-! ### Growing grids -/

open Verif.Grid2D (MapLimits)

theorem i32_eq {v w : Int} (h : i32 v = some w) : w = v := by
  unfold i32 at h
  split at h
  · exact (Option.some.inj h).symm
  · cases h

theorem i32_isSome (v : Int) : (i32 v).isSome ↔ -2147483648 ≤ v ∧ v ≤ 2147483647 := by
  unfold i32
  split <;> simp_all

/-- A grid can be doubled if and only if four times its cells can be counted with an `int`. -/
theorem growStep_iff {l : MapLimits} (hr : 0 < l.resolution) (hx : 0 < l.numX) (hy : 0 < l.numY) :
    (growStep l).isSome ↔ 4 * l.numX * l.numY ≤ 2147483647 := by
  have hm : Grid2D.growMapLimits l = some ⟨l.resolution, l.maxX + l.resolution * ((l.numY / 2 : Nat) : ℚ), l.maxY + l.resolution * ((l.numX / 2 : Nat) : ℚ),
      2 * l.numX, 2 * l.numY⟩ := if_pos ⟨hr, by omega, by omega⟩
  have hx' : (1 : Int) ≤ l.numX := by exact_mod_cast hx
  have hy' : (1 : Int) ≤ l.numY := by exact_mod_cast hy
  have hprod : (2 * (l.numX : Int)) * (2 * (l.numY : Int)) = ((4 * l.numX * l.numY : Nat) : Int) := by push_cast; ring
  unfold growStep
  simp only [Option.bind_eq_bind]
  constructor
  · intro h
    rw [Option.isSome_iff_exists] at h
    obtain ⟨r, h⟩ := h
    simp only [Option.bind_eq_some_iff] at h
    obtain ⟨nx, h1, ny, h2, l', h3, a, h4, o, h5, z, h6, h7⟩ := h
    have e1 : nx = 2 * (l.numX : Int) := by unfold i32 at h1; split at h1 <;> simp_all
    have e2 : ny = 2 * (l.numY : Int) := by unfold i32 at h2; split at h2 <;> simp_all
    have := (i32_isSome _).1 (Option.isSome_iff_exists.2 ⟨_, h6⟩)
    rw [e1, e2, hprod] at this
    exact_mod_cast this.2
  · intro h
    have h' : (4 * (l.numX : Int) * l.numY) ≤ 2147483647 := by exact_mod_cast h
    have a1 : (l.numX : Int) * 1 ≤ l.numX * l.numY := by nlinarith
    have a2 : (l.numY : Int) * 1 ≤ l.numX * l.numY := by nlinarith
    have a3 : 2 * (l.numX : Int) * ((l.numY : Int) / 2) ≤ l.numX * l.numY := by
      have : 2 * ((l.numY : Int) / 2) ≤ l.numY := by omega
      nlinarith
    have a4 : 0 ≤ 2 * (l.numX : Int) * ((l.numY : Int) / 2) := by positivity
    have a5 : 0 ≤ (l.numX : Int) * l.numY := by positivity
    have a6 : (l.numX : Int) / 2 ≤ l.numX := by omega
    have a7 : 0 ≤ (l.numX : Int) / 2 := by omega
    rw [i32_of (by omega) (by nlinarith), Option.bind_some, i32_of (by omega) (by nlinarith), Option.bind_some, hm, Option.bind_some,
      i32_of (by omega) (by nlinarith), Option.bind_some, i32_of (by omega) (by nlinarith), Option.bind_some, i32_of (by nlinarith) (by nlinarith)]
    rfl

/-- The limits of a submap at `(ox, oy)` that was doubled `k` times. -/
def limitsAt (r ox oy : ℚ) (k : Nat) : MapLimits := ⟨r, ox + 50 * 2 ^ k * r, oy + 50 * 2 ^ k * r, 100 * 2 ^ k, 100 * 2 ^ k⟩

theorem limitsAt_zero {r : ℚ} (hr : 0 < r) (ox oy : ℚ) : initialLimits r ox oy = some (limitsAt r ox oy 0) := by
  unfold initialLimits Grid2D.mkLimits limitsAt
  rw [if_pos ⟨hr, by omega, by omega⟩]
  norm_num

theorem growMapLimits_at {r : ℚ} (hr : 0 < r) (ox oy : ℚ) (k : Nat) :
    Grid2D.growMapLimits (limitsAt r ox oy k) = some (limitsAt r ox oy (k + 1)) := by
  unfold Grid2D.growMapLimits Grid2D.mkLimits limitsAt
  have hp : 0 < 2 ^ k := Nat.two_pow_pos k
  rw [if_pos ⟨hr, by dsimp only; omega, by dsimp only; omega⟩]
  have h2 : 100 * 2 ^ k / 2 = 50 * 2 ^ k := by omega
  simp only [h2, Option.some.injEq, MapLimits.mk.injEq, true_and]
  refine ⟨?_, ?_, ?_, ?_⟩
  · push_cast; ring
  · push_cast; ring
  · ring
  · ring

theorem growStep_at {r : ℚ} (hr : 0 < r) (ox oy : ℚ) {k : Nat} (hk : k ≤ 7) : growStep (limitsAt r ox oy k) = some (limitsAt r ox oy (k + 1)) := by
  have h : (growStep (limitsAt r ox oy k)).isSome := by
    rw [growStep_iff hr (by simp [limitsAt]) (by simp [limitsAt])]
    simp only [limitsAt]
    have h1 : 2 ^ k ≤ 2 ^ 7 := Nat.pow_le_pow_right (by omega) hk
    have h2 := Nat.mul_le_mul h1 h1
    nlinarith
  obtain ⟨l, hl⟩ := Option.isSome_iff_exists.1 h
  have hl' := hl
  unfold growStep at hl
  simp only [Option.bind_eq_bind, Option.bind_eq_some_iff] at hl
  obtain ⟨nx, h1, ny, h2, l', h3, a, h4, o, h5, z, h6, h7⟩ := hl
  rw [growMapLimits_at hr, Option.some.injEq] at h3
  rw [Option.some.injEq] at h7
  rw [hl', ← h7, ← h3]

/-- The ninth doubling does not work. -/
theorem growStep_eight {r : ℚ} (hr : 0 < r) (ox oy : ℚ) : growStep (limitsAt r ox oy 8) = none := by
  rw [← Option.not_isSome_iff_eq_none, growStep_iff hr (Nat.mul_pos (by omega) (Nat.two_pow_pos 8)) (Nat.mul_pos (by omega) (Nat.two_pow_pos 8))]
  show ¬ 4 * (100 * 2 ^ 8) * (100 * 2 ^ 8) ≤ 2147483647
  norm_num

/-- A coordinate in cells from the upper border. -/
theorem round_range {x : ℚ} {m : Nat} : (0 ≤ Prob.roundToInt (x - 1 / 2) ∧ Prob.roundToInt (x - 1 / 2) < m) ↔ 0 < x ∧ x < m := by
  by_cases hx : 0 < x
  · rw [Insert2D.round_floor hx, Int.floor_lt]
    simp only [Int.cast_natCast]
    exact ⟨fun h => ⟨hx, h.2⟩, fun h => ⟨Int.floor_nonneg.2 hx.le, h.2⟩⟩
  · constructor
    · rintro ⟨h, -⟩
      exfalso
      unfold Prob.roundToInt at h
      rw [if_neg (by linarith [not_lt.1 hx])] at h
      have : ⌈x - 1 / 2 - 1 / 2⌉ ≤ -1 := by
        rw [Int.ceil_le]
        push_cast
        linarith [not_lt.1 hx]
      omega
    · rintro ⟨h, -⟩
      exact absurd h hx

theorem range_abs {r h o p : ℚ} {m : Nat} (hr : 0 < r) (hm : (m : ℚ) = 2 * h) :
    (0 ≤ Prob.roundToInt ((o + h * r - p) / r - 1 / 2) ∧ Prob.roundToInt ((o + h * r - p) / r - 1 / 2) < m) ↔ |p - o| < h * r := by
  rw [round_range, div_lt_iff₀ hr, div_pos_iff_of_pos_right hr, abs_lt, hm]
  constructor <;> rintro ⟨h1, h2⟩ <;> constructor <;> linarith

theorem contains_of {l : MapLimits} {i : Int × Int} :
    l.contains i = true ↔ (0 ≤ i.1 ∧ i.1 < l.numX) ∧ 0 ≤ i.2 ∧ i.2 < l.numY := by
  unfold MapLimits.contains
  constructor
  · intro h
    simp only [Bool.and_eq_true, decide_eq_true_eq] at h
    omega
  · intro h
    simp only [Bool.and_eq_true, decide_eq_true_eq]
    omega

theorem contains_at {r : ℚ} (hr : 0 < r) (ox oy px py : ℚ) (k : Nat) :
    (limitsAt r ox oy k).contains ((limitsAt r ox oy k).getCellIndex px py) = true ↔ |px - ox| < 50 * 2 ^ k * r ∧ |py - oy| < 50 * 2 ^ k * r := by
  have hm : ((100 * 2 ^ k : Nat) : ℚ) = 2 * (50 * 2 ^ k) := by push_cast; ring
  rw [contains_of]
  have k1 := range_abs (o := oy) (p := py) hr hm
  have k2 := range_abs (o := ox) (p := px) hr hm
  rw [← k1, ← k2]
  exact and_comm

theorem round_bound {x : ℚ} {m : Int} (h1 : (-m : ℚ) < x) (h2 : x < m) : -m ≤ Prob.roundToInt x ∧ Prob.roundToInt x ≤ m := by
  unfold Prob.roundToInt
  split
  · next h0 =>
    have hm : (0 : ℚ) < m := lt_of_le_of_lt h0 h2
    have hm' : 0 < m := by exact_mod_cast hm
    refine ⟨?_, ?_⟩
    · have := Int.floor_nonneg.2 (show (0 : ℚ) ≤ x + 1 / 2 by linarith)
      omega
    · have : ⌊x + 1 / 2⌋ < m + 1 := by
        rw [Int.floor_lt]
        push_cast
        linarith
      omega
  · next h0 =>
    have hm : (0 : ℚ) < m := by linarith [not_le.1 h0]
    have hm' : 0 < m := by exact_mod_cast hm
    refine ⟨?_, ?_⟩
    · have : -m - 1 < ⌈x - 1 / 2⌉ := by
        rw [Int.lt_ceil]
        push_cast
        linarith
      omega
    · have : ⌈x - 1 / 2⌉ ≤ 0 := by
        rw [Int.ceil_le]
        push_cast
        linarith [not_le.1 h0]
      omega

theorem cellIndex_at {r : ℚ} (hr : 0 < r) {ox oy px py : ℚ} {k : Nat} (hk : k ≤ 8) (h1 : |px - ox| < 12800 * r) (h2 : |py - oy| < 12800 * r) :
    getCellIndex (limitsAt r ox oy k) px py = some ((limitsAt r ox oy k).getCellIndex px py) := by
  have hp : (2 : ℚ) ^ k ≤ 256 := by
    have : (2 : ℚ) ^ k ≤ 2 ^ 8 := pow_le_pow_right₀ (by norm_num) hk
    norm_num at this
    exact this
  have hp0 : (0 : ℚ) < 2 ^ k := by positivity
  have key : ∀ o p : ℚ, |p - o| < 12800 * r → -30000 ≤ Prob.roundToInt ((o + 50 * 2 ^ k * r - p) / r - 1 / 2) ∧
      Prob.roundToInt ((o + 50 * 2 ^ k * r - p) / r - 1 / 2) ≤ 30000 := by
    intro o p h
    rw [abs_lt] at h
    have e : (o + 50 * 2 ^ k * r - p) / r = (o - p) / r + 50 * 2 ^ k := by field_simp; ring
    have b1 : (o - p) / r < 12800 := by rw [div_lt_iff₀ hr]; linarith
    have b2 : -12800 < (o - p) / r := by rw [lt_div_iff₀ hr]; linarith
    exact round_bound (by push_cast; rw [e]; linarith) (by push_cast; rw [e]; linarith)
  unfold getCellIndex MapLimits.getCellIndex
  have k1 := key oy py h2
  have k2 := key ox px h1
  simp only [limitsAt, Option.bind_eq_bind]
  rw [i32_of (by omega) (by omega), Option.bind_some, i32_of (by omega) (by omega), Option.bind_some]

/-- A submap of 100 times 100 cells that grows is one that was doubled at most eight times: it never has more than 25600 times 25600
cells. -/
theorem grown_limits {r : ℚ} (hr : 0 < r) {ox oy px py : ℚ} : ∀ (n : Nat) {j : Nat} {l : MapLimits}, j ≤ 8 →
    growLoop n (limitsAt r ox oy j) px py = some l → ∃ k, j ≤ k ∧ k ≤ 8 ∧ l = limitsAt r ox oy k ∧ |px - ox| < 50 * 2 ^ k * r ∧ |py - oy| < 50 * 2 ^ k * r := by
  intro n
  induction n with
  | zero => intro j l _ h; simp [growLoop] at h
  | succ n ih =>
    intro j l hj h
    rw [growLoop, Option.bind_eq_some_iff] at h
    obtain ⟨i, hi, h⟩ := h
    have hi' : i = (limitsAt r ox oy j).getCellIndex px py := by
      unfold getCellIndex at hi
      simp only [Option.bind_eq_bind, Option.bind_eq_some_iff, Option.some.injEq] at hi
      obtain ⟨x, hx, y, hy, rfl⟩ := hi
      rw [i32_eq hx, i32_eq hy]
    split at h
    · next hc =>
      rw [Option.some.injEq] at h
      rw [hi', contains_at hr] at hc
      exact ⟨j, le_refl _, hj, h.symm, hc⟩
    · rcases Nat.lt_or_ge j 8 with hlt | hge
      · rw [growStep_at hr _ _ (by omega), Option.bind_some] at h
        obtain ⟨k, h1, h2⟩ := ih (by omega) h
        exact ⟨k, by omega, h2⟩
      · obtain rfl : j = 8 := by omega
        rw [growStep_eight hr] at h
        cases h

/-- Which points a submap can grow to: those less than 12800 cells from its origin in both directions (640 m with cells of 5 cm). For
all others `int` overflows in `GrowLimits`, and the size of the vector with it. -/
theorem grow_iff {r : ℚ} (hr : 0 < r) {ox oy px py : ℚ} {j : Nat} (hj : j ≤ 8) {n : Nat} (hn : 9 ≤ n) :
    (growLoop n (limitsAt r ox oy j) px py).isSome ↔ |px - ox| < 12800 * r ∧ |py - oy| < 12800 * r := by
  constructor
  · intro h
    obtain ⟨l, hl⟩ := Option.isSome_iff_exists.1 h
    obtain ⟨k, -, hk, -, h1, h2⟩ := grown_limits hr n hj hl
    have hp : (2 : ℚ) ^ k ≤ 256 := by
      have : (2 : ℚ) ^ k ≤ 2 ^ 8 := pow_le_pow_right₀ (by norm_num) hk
      norm_num at this
      exact this
    have : 50 * 2 ^ k * r ≤ 12800 * r := by nlinarith
    exact ⟨by linarith, by linarith⟩
  · rintro ⟨h1, h2⟩
    have key : ∀ (d n : Nat) {j : Nat}, j + d = 8 → d < n → (growLoop n (limitsAt r ox oy j) px py).isSome := by
      intro d
      induction d with
      | zero =>
        intro n j hj hn
        obtain ⟨n, rfl⟩ : ∃ m, n = m + 1 := ⟨n - 1, by omega⟩
        obtain rfl : j = 8 := by omega
        rw [growLoop, cellIndex_at hr (by omega) h1 h2, Option.bind_some, if_pos]
        · rfl
        · rw [contains_at hr]
          norm_num
          exact ⟨h1, h2⟩
      | succ d ih =>
        intro n j hj hn
        obtain ⟨n, rfl⟩ : ∃ m, n = m + 1 := ⟨n - 1, by omega⟩
        rw [growLoop, cellIndex_at hr (by omega) h1 h2, Option.bind_some]
        split
        · rfl
        · rw [growStep_at hr _ _ (by omega), Option.bind_some]
          exact ih n (by omega) (by omega)
    exact key (8 - j) n (by omega) (by omega)

/-- In every grid that a submap can grow to, for every pair of points in it: the limits with sub-pixels, the sub-pixels of the points, the ray
between them and the position of each of its cells in the vector are computed without overflow, and the ray is that of C20, inside the
grid. -/
theorem rays_in_grown_grid {r : ℚ} (hr : 0 < r) {ox oy : ℚ} {k : Nat} (hk : k ≤ 8) {p q : ℚ × ℚ}
    (hp : |p.1 - ox| < 50 * 2 ^ k * r ∧ |p.2 - oy| < 50 * 2 ^ k * r) (hq : |q.1 - ox| < 50 * 2 ^ k * r ∧ |q.2 - oy| < 50 * 2 ^ k * r) :
    ∃ sup b e N mask, superscaled (limitsAt r ox oy k) 1000 = some sup ∧ getCellIndex sup p.1 p.2 = some b ∧ getCellIndex sup q.1 q.2 = some e ∧
      (∀ n, N ≤ n → rayToPixelMask n b e 1000 = some mask) ∧ MaskOk 1000 b e mask ∧
      ∀ c ∈ mask, (limitsAt r ox oy k).contains c = true ∧ ∃ f, i32 (((limitsAt r ox oy k).numX : Int) * c.2) = some f ∧ (i32 (f + c.1)).isSome := by
  have h2k : 2 ^ k ≤ 256 := by
    have : 2 ^ k ≤ 2 ^ 8 := Nat.pow_le_pow_right (by omega) hk
    simpa using this
  have h2k0 : 0 < 2 ^ k := Nat.two_pow_pos k
  have hlt : ∀ {x : ℚ × ℚ}, (|x.1 - ox| < 50 * 2 ^ k * r ∧ |x.2 - oy| < 50 * 2 ^ k * r) →
      (x.1 < (limitsAt r ox oy k).maxX ∧ x.2 < (limitsAt r ox oy k).maxY) := by
    rintro x ⟨h1, h2⟩
    rw [abs_lt] at h1 h2
    exact ⟨by simp only [limitsAt]; linarith, by simp only [limitsAt]; linarith⟩
  have hin : ∀ {x : ℚ × ℚ}, (|x.1 - ox| < 50 * 2 ^ k * r ∧ |x.2 - oy| < 50 * 2 ^ k * r) → Insert2D.Inside (limitsAt r ox oy k) x :=
    fun h => (contains_at hr _ _ _ _ _).2 h
  have hr' : 0 < (limitsAt r ox oy k).resolution := hr
  have bp := Insert2D.subCell_bounds hr' (hlt hp) (hin hp)
  have bq := Insert2D.subCell_bounds hr' (hlt hq) (hin hq)
  have hsup : superscaled (limitsAt r ox oy k) 1000 = some (Insert2D.superLimits (limitsAt r ox oy k)) := by
    unfold superscaled
    simp only [limitsAt, Option.bind_eq_bind]
    have hi : i32 (((100 * 2 ^ k : Nat) : Int) * ((1000 : Nat) : Int)) = some (((100 * 2 ^ k : Nat) : Int) * ((1000 : Nat) : Int)) :=
      i32_of (by omega) (by omega)
    rw [hi, Option.bind_some, Option.bind_some]
    unfold Grid2D.mkLimits
    rw [if_pos]
    · rfl
    · refine ⟨by positivity, ?_, ?_⟩ <;> omega
  have hbound : ((limitsAt r ox oy k).numX : Int) ≤ 25600 ∧ ((limitsAt r ox oy k).numY : Int) ≤ 25600 := by
    simp only [limitsAt]
    exact ⟨by exact_mod_cast (by omega : 100 * 2 ^ k ≤ 25600), by exact_mod_cast (by omega : 100 * 2 ^ k ≤ 25600)⟩
  have hidx : ∀ {x : ℚ × ℚ}, (|x.1 - ox| < 50 * 2 ^ k * r ∧ |x.2 - oy| < 50 * 2 ^ k * r) →
      getCellIndex (Insert2D.superLimits (limitsAt r ox oy k)) x.1 x.2 = some (Insert2D.subCell (limitsAt r ox oy k) x) := by
    intro x hx
    have bx := Insert2D.subCell_bounds hr' (hlt hx) (hin hx)
    unfold getCellIndex
    rw [Insert2D.super_index hr' (hlt hx)]
    simp only [Option.bind_eq_bind]
    rw [i32_of (by omega) (by omega), Option.bind_some, i32_of (by omega) (by omega), Option.bind_some]
  obtain ⟨N, mask, hm, ok⟩ := machine_ray_exact (s := 1000) (by omega) (by omega) _ _ ⟨bp.1, bp.2.1⟩ ⟨bq.1, bq.2.1⟩ ⟨by omega, by omega⟩ ⟨by omega, by omega⟩
  refine ⟨_, _, _, N, mask, hsup, hidx hp, hidx hq, hm, ok, ?_⟩
  intro c hc
  obtain ⟨c1, c2, c3, c4⟩ := Insert2D.meets_inside (s := 1000) (by omega) bp bq ((ok.mem c).1 hc)
  refine ⟨?_, ((limitsAt r ox oy k).numX : Int) * c.2, ?_, ?_⟩
  · simp only [MapLimits.contains, Bool.and_eq_true, decide_eq_true_eq]
    exact ⟨⟨⟨c1, c2⟩, c3⟩, c4⟩
  · exact i32_of (by nlinarith) (by nlinarith)
  · rw [i32_isSome]
    constructor <;> nlinarith

/-! ### What happens beyond -/

/-- As compiled, points at a distance of a multiple of `2 ^ 32` cells are taken for the same. -/
theorem wrap_far {l : MapLimits} (hr : 0 < l.resolution) {px py : ℚ} (hx : px < l.maxX) (hy : py < l.maxY) (a b : Nat) :
    compiledCellIndex l (px - 4294967296 * a * l.resolution) (py - 4294967296 * b * l.resolution) = compiledCellIndex l px py := by
  have key : ∀ (m p : ℚ) (c : Nat), p < m → wrap (Prob.roundToInt ((m - (p - 4294967296 * c * l.resolution)) / l.resolution - 1 / 2)) =
      wrap (Prob.roundToInt ((m - p) / l.resolution - 1 / 2)) := by
    intro m p c h
    have hd : 0 < (m - p) / l.resolution := div_pos (by linarith) hr
    have e : (m - (p - 4294967296 * c * l.resolution)) / l.resolution = (m - p) / l.resolution + ((4294967296 * (c : Int) : Int) : ℚ) := by
      push_cast
      field_simp
      ring
    have hc : (0 : ℚ) ≤ ((4294967296 * (c : Int) : Int) : ℚ) := by push_cast; positivity
    rw [e, Insert2D.round_floor hd, Insert2D.round_floor (by linarith), Int.floor_add_intCast]
    unfold wrap
    omega
  unfold compiledCellIndex MapLimits.getCellIndex
  rw [key _ _ _ hy, key _ _ _ hx]

/-- For points in the grid what is compiled is exact, and whenever the machine arithmetic does not overflow. -/
theorem compiled_exact {l : MapLimits} {px py : ℚ} {i : Int × Int} (h : getCellIndex l px py = some i) :
    i = l.getCellIndex px py ∧ compiledCellIndex l px py = i := by
  unfold getCellIndex at h
  simp only [Option.bind_eq_bind, Option.bind_eq_some_iff, Option.some.injEq] at h
  obtain ⟨x, hx, y, hy, rfl⟩ := h
  have bx := (i32_isSome _).1 (Option.isSome_iff_exists.2 ⟨_, hx⟩)
  have byy := (i32_isSome _).1 (Option.isSome_iff_exists.2 ⟨_, hy⟩)
  rw [i32_eq hx, i32_eq hy]
  refine ⟨rfl, ?_⟩
  unfold compiledCellIndex wrap
  exact Prod.ext (by dsimp only; omega) (by dsimp only; omega)

/-- A cell beyond an `int` in a grid with the border at zero, by which the bounds in `ray_no_overflow` are needed: a scale of one. -/
theorem scale_one_overflows : rayToPixelMask 5 (0, 2147483647) (0, 2147483647) 1 = none ∧
    Ray.rayToPixelMask 5 (0, 2147483647) (0, 2147483647) 1 = some [(0, 2147483647)] := by
  constructor <;> decide +kernel

/-- A scale of `2 ^ 30`: twice the scale is not an `int`. -/
theorem scale_large_overflows : rayToPixelMask 5 (0, 0) (1073741825, 1) 1073741824 = none ∧
    (Ray.rayToPixelMask 5 (0, 0) (1073741825, 1) 1073741824).isSome := by
  constructor <;> decide +kernel

/-! ### Examples -/

example : rayToPixelMask 20 (0, 0) (25, 12) 10 = some [(0, 0), (1, 0), (2, 0), (2, 1)] := by decide +kernel

/-- A ray from one end of the largest grid to the other, in a narrow slope. -/
example : rayToPixelMask 100 (25599999, 25599999) (25597000, 25599000) 1000 = Ray.rayToPixelMask 100 (25599999, 25599999) (25597000, 25599000) 1000 ∧
    (rayToPixelMask 100 (25599999, 25599999) (25597000, 25599000) 1000).isSome := by
  constructor <;> decide +kernel

/-- Cells of 5 cm: 100 m away is fine, 640 m is not. -/
example : (growLoop 9 (limitsAt (1 / 20) 0 0 0) 100 (-300)).isSome :=
  (grow_iff (by norm_num) (by omega) (le_refl 9)).2 ⟨by rw [abs_lt]; norm_num, by rw [abs_lt]; norm_num⟩

example (n : Nat) : growLoop (n + 9) (limitsAt (1 / 20) 0 0 0) 640 0 = none := by
  rw [← Option.not_isSome_iff_eq_none, grow_iff (by norm_num) (by omega) (by omega)]
  rintro ⟨h, -⟩
  rw [abs_lt] at h
  norm_num at h

example : (initialLimits (1 / 20) 3 4).bind (fun l => growLoop 9 l 6 (-5)) = some (limitsAt (1 / 20) 3 4 2) := by decide +kernel

example : compiledCellIndex (limitsAt 1 0 0 0) (-4294967246) 0 = (50, 0) := by decide +kernel

end Verif.Machine
