import Verif.RayMask
import Mathlib.Tactic.Linarith
import Mathlib.Tactic.Ring
import Mathlib.Tactic.LinearCombination
import Mathlib.Tactic.FieldSimp
import Mathlib.Tactic.Positivity
import Mathlib.Data.List.Nodup
import Mathlib.Algebra.Order.Field.Rat

/-!
# C20: the pixels of a ray
-/

namespace Verif.Ray

/-- The pixel `p` is met by the segment between the centres of the sub-pixels `b` and `e`: some point of the segment
lies inside of the pixel.  Units are sub-pixels, a pixel is `s` by `s` sub-pixels and the centre of a sub-pixel has
the offset 1/2.  (The segment never runs along a pixel border, so a pixel that is not met in this sense is touched in
a corner at most.) -/
def Meets (s : Int) (b e p : Px) : Prop :=
  ∃ t : ℚ, 0 ≤ t ∧ t ≤ 1 ∧
    (s : ℚ) * p.1 < b.1 + 1 / 2 + t * (e.1 - b.1) ∧ b.1 + 1 / 2 + t * (e.1 - b.1) < (s : ℚ) * (p.1 + 1) ∧
    (s : ℚ) * p.2 < b.2 + 1 / 2 + t * (e.2 - b.2) ∧ b.2 + 1 / 2 + t * (e.2 - b.2) < (s : ℚ) * (p.2 + 1)

/-- Two different pixels that share an edge or a corner. -/
def Adjacent (p q : Px) : Prop := p ≠ q ∧ |p.1 - q.1| ≤ 1 ∧ |p.2 - q.2| ≤ 1

theorem adjacent_symm {p q : Px} (h : Adjacent p q) : Adjacent q p := by
  obtain ⟨h1, h2, h3⟩ := h
  exact ⟨h1.symm, by rwa [abs_sub_comm], by rwa [abs_sub_comm]⟩

/-! ## One column -/

/-- The pixels of column `x` from row `y + k` down to row `y`. -/
def rows (x y : Int) : Nat → List Px
  | 0 => [(x, y)]
  | k + 1 => (x, y + (k + 1 : Nat)) :: rows x y k

theorem rows_shift (x y : Int) (k : Nat) (acc : List Px) : rows x (y + 1) k ++ (x, y) :: acc = rows x y (k + 1) ++ acc := by
  induction k with
  | zero => simp [rows]
  | succ k ih =>
    rw [rows, List.cons_append, ih]
    conv_rhs => rw [rows]
    simp only [List.cons_append, List.cons.injEq, Prod.mk.injEq, true_and, and_true]
    push_cast
    ring

theorem mem_rows (x y : Int) (k : Nat) (p : Px) : p ∈ rows x y k ↔ p.1 = x ∧ y ≤ p.2 ∧ p.2 ≤ y + k := by
  obtain ⟨a, b⟩ := p
  induction k with
  | zero =>
    simp only [rows, List.mem_singleton, Prod.mk.injEq]
    constructor
    · rintro ⟨rfl, rfl⟩; simp
    · rintro ⟨rfl, h1, h2⟩; exact ⟨rfl, by push_cast at h2; omega⟩
  | succ k ih =>
    simp only [rows, List.mem_cons, ih, Prod.mk.injEq]
    push_cast
    omega

theorem rows_head (x y : Int) (k : Nat) (acc : List Px) : ∃ l, rows x y k ++ acc = (x, y + k) :: l := by
  cases k with
  | zero => exact ⟨acc, by simp [rows]⟩
  | succ k => exact ⟨rows x y k ++ acc, by simp [rows]⟩

theorem rows_chain (x y : Int) (acc : List Px) (h : List.IsChain Adjacent ((x, y) :: acc)) (k : Nat) :
    List.IsChain Adjacent (rows x y k ++ acc) := by
  induction k with
  | zero => simpa [rows] using h
  | succ k ih =>
    obtain ⟨l, hl⟩ := rows_head x y k acc
    rw [rows, List.cons_append]
    rw [hl] at ih ⊢
    refine List.IsChain.cons_cons ⟨?_, ?_, ?_⟩ ih
    · simp only [ne_eq, Prod.mk.injEq, true_and]; push_cast; omega
    · simp
    · simp only; push_cast; rw [show y + ((k : Int) + 1) - (y + k) = 1 by ring]; simp

theorem rows_last (x y : Int) (acc : List Px) (q : Px) (h : ((x, y) :: acc).getLast? = some q) (k : Nat) :
    (rows x y k ++ acc).getLast? = some q := by
  induction k with
  | zero => simpa [rows] using h
  | succ k ih =>
    obtain ⟨l, hl⟩ := rows_head x y k acc
    rw [rows, List.cons_append]
    rw [hl] at ih ⊢
    rw [List.getLast?_cons_cons]
    exact ih

theorem rows_nodup (x y : Int) (k : Nat) : (rows x y k).Nodup := by
  induction k with
  | zero => simp [rows]
  | succ k ih =>
    rw [rows, List.nodup_cons]
    refine ⟨?_, ih⟩
    rw [mem_rows]
    push_cast
    omega

theorem climb_spec {D : Int} (hD : 0 < D) (x : Int) : ∀ (n : Nat) (sub y : Int) (acc : List Px), 1 ≤ n → sub ≤ n * D →
    ∃ k : Nat, climb D x n sub y ((x, y) :: acc) = some (sub - k * D, y + k, rows x y k ++ acc) ∧
      sub - k * D ≤ D ∧ (0 < k → 0 < sub - k * D) := by
  intro n
  induction n with
  | zero => intro sub y acc h; omega
  | succ n ih =>
    intro sub y acc _ hs
    unfold climb
    by_cases h : sub > D
    · have hp : push ((x, y) :: acc) (x, y + 1) = (x, y + 1) :: (x, y) :: acc := by
        simp [push]
      have hn : 1 ≤ n := by
        rcases Nat.eq_zero_or_pos n with h0 | h0
        · subst h0; simp at hs; omega
        · exact h0
      obtain ⟨k, e, h1, h2⟩ := ih (sub - D) (y + 1) ((x, y) :: acc) hn (by push_cast at hs; linarith)
      refine ⟨k + 1, ?_, ?_, ?_⟩
      · rw [if_pos h, hp, e, rows_shift]
        push_cast
        simp only [Option.some.injEq, Prod.mk.injEq, and_true]
        constructor <;> ring
      · push_cast; linarith
      · intro _
        push_cast
        rcases Nat.eq_zero_or_pos k with h0 | h0
        · subst h0; simp; omega
        · have := h2 h0; linarith
    · exact ⟨0, by rw [if_neg h]; simp [rows], by simpa using h, by simp⟩

/-! ## Ascending lines -/

section Asc
variable (D w dy x0 x1 h0 X0 X1 : Int)

/-- Height of the line at abscissa `x`. -/
def height (x : Int) : Int := h0 + dy * (x - x0)

/-- Abscissae where the line enters and leaves column `X`. -/
def enter (X : Int) : Int := if X = X0 then x0 else w * X
def leave (X : Int) : Int := if X = X1 then x1 else w * (X + 1)

/-- The line meets pixel `(X, y)`, in terms of the heights at the borders of the column. -/
def Met (p : Px) : Prop := X0 ≤ p.1 ∧ p.1 ≤ X1 ∧ height dy x0 h0 (enter w x0 X0 p.1) < (p.2 + 1) * D ∧
  p.2 * D < height dy x0 h0 (leave w x1 X1 p.1)

/-- What is known when column `X` is entered in row `Y`; `acc` are the pixels of the columns before. -/
structure AscInv (start : Px) (X Y : Int) (acc : List Px) : Prop where
  left : X0 ≤ X
  low : Y * D ≤ height dy x0 h0 (enter w x0 X0 X)
  high : height dy x0 h0 (enter w x0 X0 X) < (Y + 1) * D
  mem : ∀ p, p ∈ acc ↔ Met D w dy x0 x1 h0 X0 X1 p ∧ p.1 < X
  chain : List.IsChain Adjacent ((X, Y) :: acc)
  nodup : acc.Nodup
  last : ((X, Y) :: acc).getLast? = some start

variable {D w dy x0 x1 h0 X0 X1}

theorem height_lt {a b : Int} (hdy : 0 ≤ dy) (hab : a < b) {Y : Int} (hD : 0 < D) (hnm : ∀ y : Int, h0 ≠ y * D)
    (h : Y * D ≤ height dy x0 h0 a) : Y * D < height dy x0 h0 b := by
  unfold height at *
  rcases hdy.lt_or_eq with hp | hp
  · nlinarith
  · rw [← hp] at h ⊢
    simp only [Int.zero_mul, Int.add_zero] at *
    exact lt_of_le_of_ne h (Ne.symm (hnm Y))

/-- Climbing in column `X`. -/
theorem column_spec {start : Px} {X Y : Int} {acc : List Px} (hD : 0 < D) (hdy : 0 ≤ dy) (hnm : ∀ y : Int, h0 ≠ y * D)
    (hX : X ≤ X1) (hlt : enter w x0 X0 X < leave w x1 X1 X) (I : AscInv D w dy x0 x1 h0 X0 X1 start X Y acc) (n : Nat) (hn : 1 ≤ n)
    (hs : height dy x0 h0 (leave w x1 X1 X) - Y * D ≤ n * D) :
    ∃ k : Nat, climb D X n (height dy x0 h0 (leave w x1 X1 X) - Y * D) Y ((X, Y) :: acc) =
        some (height dy x0 h0 (leave w x1 X1 X) - (Y + k) * D, Y + k, rows X Y k ++ acc) ∧
      (Y + k) * D < height dy x0 h0 (leave w x1 X1 X) ∧ height dy x0 h0 (leave w x1 X1 X) ≤ (Y + k + 1) * D ∧
      (∀ p, p ∈ rows X Y k ++ acc ↔ Met D w dy x0 x1 h0 X0 X1 p ∧ p.1 < X + 1) ∧
      List.IsChain Adjacent (rows X Y k ++ acc) ∧ (rows X Y k ++ acc).Nodup ∧
      (rows X Y k ++ acc).getLast? = some start := by
  obtain ⟨k, e, h1, h2⟩ := climb_spec hD X n (height dy x0 h0 (leave w x1 X1 X) - Y * D) Y acc hn hs
  have hpos : Y * D < height dy x0 h0 (leave w x1 X1 X) := height_lt hdy hlt hD hnm I.low
  have hlow : (Y + k) * D < height dy x0 h0 (leave w x1 X1 X) := by
    rcases Nat.eq_zero_or_pos k with hk | hk
    · subst hk; simpa using hpos
    · have := h2 hk; linarith
  have hhigh : height dy x0 h0 (leave w x1 X1 X) ≤ (Y + k + 1) * D := by linarith
  refine ⟨k, ?_, hlow, hhigh, ?_, rows_chain X Y acc I.chain k, ?_, rows_last X Y acc start I.last k⟩
  · rw [e]
    congr 2
    ring
  · rintro ⟨x, y⟩
    rw [List.mem_append, mem_rows, I.mem]
    simp only
    constructor
    · rintro (⟨rfl, a1, a2⟩ | ⟨a1, a2⟩)
      · refine ⟨⟨I.left, hX, ?_, ?_⟩, by omega⟩
        · simp only
          have := I.high
          have : (Y + 1) * D ≤ (y + 1) * D := mul_le_mul_of_nonneg_right (by omega) hD.le
          linarith
        · simp only
          have : y * D ≤ (Y + k) * D := mul_le_mul_of_nonneg_right (by omega) hD.le
          linarith
      · exact ⟨a1, by omega⟩
    · rintro ⟨a1, a2⟩
      by_cases hx : x = X
      · left
        subst hx
        obtain ⟨-, -, b1, b2⟩ := a1
        simp only at b1 b2
        refine ⟨rfl, ?_, ?_⟩
        · by_contra hc
          have : (y + 1) * D ≤ Y * D := mul_le_mul_of_nonneg_right (by omega) hD.le
          have := I.low
          linarith
        · by_contra hc
          have : (Y + k + 1) * D ≤ y * D := mul_le_mul_of_nonneg_right (by omega) hD.le
          linarith
      · right; exact ⟨a1, by omega⟩
  · rw [List.nodup_append]
    refine ⟨rows_nodup X Y k, I.nodup, ?_⟩
    intro a ha b hb hab
    subst hab
    rw [mem_rows] at ha
    have := ((I.mem a).1 hb).2
    omega

theorem push_other {acc l : List Px} {x y X Y : Int} (h : acc = (x, y) :: l) (hx : x < X) : push acc (X, Y) = (X, Y) :: acc := by
  subst h
  simp only [push, List.head?_cons, Option.some.injEq, Prod.mk.injEq]
  rw [if_neg]
  rintro ⟨h, -⟩; omega

theorem fuel_ok {start : Px} {X Y : Int} {acc : List Px} (hD : 0 < D) (hdy : 0 ≤ dy) (hw : 0 < w)
    (hlen : leave w x1 X1 X - enter w x0 X0 X ≤ w)
    (I : AscInv D w dy x0 x1 h0 X0 X1 start X Y acc) (n : Nat) (hn : 1 + w * dy ≤ n) :
    height dy x0 h0 (leave w x1 X1 X) - Y * D ≤ n * D := by
  have h1 := I.high
  have h2 : height dy x0 h0 (leave w x1 X1 X) = height dy x0 h0 (enter w x0 X0 X) + dy * (leave w x1 X1 X - enter w x0 X0 X) := by
    unfold height; ring
  have h3 : dy * (leave w x1 X1 X - enter w x0 X0 X) ≤ dy * w := mul_le_mul_of_nonneg_left hlen hdy
  have h4 : (1 + w * dy) * D ≤ n * D := mul_le_mul_of_nonneg_right hn hD.le
  have h5 : w * dy ≤ w * dy * D := le_mul_of_one_le_right (mul_nonneg hw.le hdy) hD
  linarith

/-- The outer loop from the entrance of column `X` to the entrance of the last column. -/
theorem ascend_spec {start : Px} (hD : 0 < D) (hdy : 0 ≤ dy) (hw : 0 < w) (hnm : ∀ y : Int, h0 ≠ y * D)
    (hx0 : w * X0 < x0) (hx0' : x0 < w * (X0 + 1)) (m : Nat) (hm : 1 + w * dy ≤ m) (r : Nat) :
    ∀ (X Y : Int) (acc acc0 : List Px) (n : Nat), X + (r + 1) = X1 → AscInv D w dy x0 x1 h0 X0 X1 start X Y acc → push acc0 (X, Y) = (X, Y) :: acc →
      r + 1 ≤ n →
    ∃ Y' acc', ascend D (dy * w) X1 m n X Y (height dy x0 h0 (w * (X + 1)) - Y * D) acc0 =
        some (height dy x0 h0 (w * X1) - Y' * D, Y', acc') ∧ AscInv D w dy x0 x1 h0 X0 X1 start X1 Y' acc' ∧
      push acc' (X1, Y') = (X1, Y') :: acc' := by
  induction r with
  | zero =>
    intro X Y acc acc0 n hX I hp hn
    obtain ⟨n, rfl⟩ : ∃ k, n = k + 1 := ⟨n - 1, by omega⟩
    have hne : X ≠ X1 := by push_cast at hX; omega
    have hleave : leave w x1 X1 X = w * (X + 1) := by rw [leave, if_neg hne]
    have hXX : X + 1 = X1 := by push_cast at hX; omega
    have henter : enter w x0 X0 X < leave w x1 X1 X ∧ leave w x1 X1 X - enter w x0 X0 X ≤ w := by
      rw [hleave, enter]
      split
      · rename_i h; rw [h]; constructor <;> linarith
      · constructor <;> linarith
    obtain ⟨k, e, h1, h2, h3, h4, h5, h6⟩ := column_spec hD hdy hnm (by omega) henter.1 I m (by nlinarith) (fuel_ok hD hdy hw henter.2 I m hm)
    rw [hleave] at e h1 h2
    obtain ⟨l, hl⟩ := rows_head X Y k acc
    have henter' : enter w x0 X0 X1 = w * X1 := by
      have := I.left
      rw [enter, if_neg (by omega)]
    have hchain : ∀ d : Int, 0 ≤ d → d ≤ 1 → List.IsChain Adjacent ((X1, Y + k + d) :: (rows X Y k ++ acc)) := by
      intro d d0 d1
      rw [hl] at h4 ⊢
      refine List.IsChain.cons_cons ⟨?_, ?_, ?_⟩ h4
      · simp only [ne_eq, Prod.mk.injEq]; omega
      · simp only; rw [← hXX, show X + 1 - X = 1 by ring]; simp
      · simp only; rw [show Y + k + d - (Y + k) = d by ring, abs_of_nonneg d0]; exact d1
    have hlast : ∀ d : Int, ((X1, Y + k + d) :: (rows X Y k ++ acc)).getLast? = some start := by
      intro d
      rw [hl] at h6 ⊢
      rw [List.getLast?_cons_cons]; exact h6
    rw [hXX] at e h1 h2 h3
    unfold ascend
    rw [hXX, hp, e]
    simp only [Option.bind_eq_bind, Option.bind_some, if_true]
    by_cases heq : height dy x0 h0 (w * X1) - (Y + k) * D = D
    · rw [if_pos heq]
      refine ⟨Y + k + 1, rows X Y k ++ acc, ?_, ⟨?_, ?_, ?_, h3, hchain 1 (by omega) (by omega), h5, hlast 1⟩, push_other hl (by omega)⟩
      · simp only [Option.some.injEq, Prod.mk.injEq, and_true]; ring
      · have := I.left; omega
      · rw [henter']; linarith
      · rw [henter']; linarith
    · rw [if_neg heq]
      have hlt : height dy x0 h0 (w * X1) < (Y + k + 1) * D := lt_of_le_of_ne h2 (fun h => heq (by rw [h]; ring))
      refine ⟨Y + k, rows X Y k ++ acc, rfl, ⟨?_, ?_, ?_, h3, ?_, h5, ?_⟩, push_other hl (by omega)⟩
      · have := I.left; omega
      · rw [henter']; exact h1.le
      · rw [henter']; exact hlt
      · simpa using hchain 0 (by omega) (by omega)
      · simpa using hlast 0
  | succ r ih =>
    intro X Y acc acc0 n hX I hp hn
    obtain ⟨n, rfl⟩ : ∃ k, n = k + 1 := ⟨n - 1, by omega⟩
    have hne : X ≠ X1 := by push_cast at hX; omega
    have hleave : leave w x1 X1 X = w * (X + 1) := by rw [leave, if_neg hne]
    have henter : enter w x0 X0 X < leave w x1 X1 X ∧ leave w x1 X1 X - enter w x0 X0 X ≤ w := by
      rw [hleave, enter]
      split
      · rename_i h; rw [h]; constructor <;> linarith
      · constructor <;> linarith
    obtain ⟨k, e, h1, h2, h3, h4, h5, h6⟩ := column_spec hD hdy hnm (by omega) henter.1 I m (by nlinarith) (fuel_ok hD hdy hw henter.2 I m hm)
    rw [hleave] at e h1 h2
    obtain ⟨l, hl⟩ := rows_head X Y k acc
    have henter' : enter w x0 X0 (X + 1) = w * (X + 1) := by
      have := I.left
      rw [enter, if_neg (by omega)]
    have hchain : ∀ d : Int, 0 ≤ d → d ≤ 1 → List.IsChain Adjacent ((X + 1, Y + k + d) :: (rows X Y k ++ acc)) := by
      intro d d0 d1
      rw [hl] at h4 ⊢
      refine List.IsChain.cons_cons ⟨?_, ?_, ?_⟩ h4
      · simp only [ne_eq, Prod.mk.injEq]; omega
      · simp only; rw [show X + 1 - X = 1 by ring]; simp
      · simp only; rw [show Y + k + d - (Y + k) = d by ring, abs_of_nonneg d0]; exact d1
    have hlast : ∀ d : Int, ((X + 1, Y + k + d) :: (rows X Y k ++ acc)).getLast? = some start := by
      intro d
      rw [hl] at h6 ⊢
      rw [List.getLast?_cons_cons]; exact h6
    have hstep : ∀ y : Int, height dy x0 h0 (w * (X + 1)) - y * D + dy * w = height dy x0 h0 (w * (X + 1 + 1)) - y * D := by
      intro y; unfold height; ring
    unfold ascend
    rw [hp, e]
    simp only [Option.bind_eq_bind, Option.bind_some]
    have hnX : ¬ X + 1 = X1 := by push_cast at hX; omega
    by_cases heq : height dy x0 h0 (w * (X + 1)) - (Y + k) * D = D
    · rw [if_pos heq]
      simp only [hnX, if_false]
      have e2 : height dy x0 h0 (w * (X + 1)) - (Y + k) * D - D + dy * w = height dy x0 h0 (w * (X + 1 + 1)) - (Y + k + 1) * D := by
        rw [← hstep]; ring
      rw [e2]
      refine ih (X + 1) (Y + k + 1) (rows X Y k ++ acc) (rows X Y k ++ acc) n (by push_cast at hX ⊢; omega)
        ⟨?_, ?_, ?_, h3, hchain 1 (by omega) (by omega), h5, hlast 1⟩ (push_other hl (by omega)) (by omega)
      · have := I.left; omega
      · rw [henter']; linarith
      · rw [henter']; linarith
    · rw [if_neg heq]
      simp only [hnX, if_false]
      have hlt : height dy x0 h0 (w * (X + 1)) < (Y + k + 1) * D := lt_of_le_of_ne h2 (fun h => heq (by rw [h]; ring))
      rw [hstep]
      refine ih (X + 1) (Y + k) (rows X Y k ++ acc) (rows X Y k ++ acc) n (by push_cast at hX ⊢; omega)
        ⟨?_, ?_, ?_, h3, ?_, h5, ?_⟩ (push_other hl (by omega)) (by omega)
      · have := I.left; omega
      · rw [henter']; exact h1.le
      · rw [henter']; exact hlt
      · simpa using hchain 0 (by omega) (by omega)
      · simpa using hlast 0

/-- The whole ascending branch. -/
theorem ascending_spec {Y0 Y1 : Int} (hD : 0 < D) (hdy : 0 ≤ dy) (hw : 0 < w)
    (hx0 : w * X0 < x0) (hx0' : x0 < w * (X0 + 1)) (hx1 : w * X1 < x1) (hx1' : x1 < w * (X1 + 1)) (hX : X0 < X1)
    (hh0 : Y0 * D < h0) (hh0' : h0 < (Y0 + 1) * D)
    (hh1 : Y1 * D < height dy x0 h0 x1) (hh1' : height dy x0 h0 x1 < (Y1 + 1) * D)
    (n : Nat) (hn : 1 + w * dy ≤ n) (hn' : X1 - X0 ≤ n) :
    ∃ sub Y acc' subF acc, ascend D (dy * w) X1 n n X0 Y0 (height dy x0 h0 (w * (X0 + 1)) - Y0 * D) [(X0, Y0)] = some (sub, Y, acc') ∧
      climb D X1 n (sub + dy * (x1 - w * X1)) Y (push acc' (X1, Y)) = some (subF, Y1, acc) ∧ subF ≠ D ∧
      (∀ p, p ∈ acc ↔ Met D w dy x0 x1 h0 X0 X1 p) ∧ List.IsChain Adjacent acc ∧ acc.Nodup ∧
      acc.head? = some (X1, Y1) ∧ acc.getLast? = some (X0, Y0) := by
  have between : ∀ (a h : Int), a * D < h → h < (a + 1) * D → ∀ y : Int, h ≠ y * D := by
    intro a h h1 h2 y he
    rw [he] at h1 h2
    have := lt_of_mul_lt_mul_right h1 hD.le
    have := lt_of_mul_lt_mul_right h2 hD.le
    omega
  have hnm := between _ _ hh0 hh0'
  have henter : enter w x0 X0 X0 = x0 := by simp [enter]
  have hH0 : height dy x0 h0 x0 = h0 := by simp [height]
  have I0 : AscInv D w dy x0 x1 h0 X0 X1 (X0, Y0) X0 Y0 [] := by
    refine ⟨le_refl _, by rw [henter, hH0]; exact hh0.le, by rw [henter, hH0]; exact hh0', ?_, List.IsChain.singleton _, List.nodup_nil, rfl⟩
    intro p
    simp only [List.not_mem_nil, false_iff]
    rintro ⟨⟨h, -⟩, h'⟩
    omega
  obtain ⟨Y, acc', e, I, hp⟩ := ascend_spec hD hdy hw hnm hx0 hx0' n hn (X1 - X0 - 1).toNat X0 Y0 [] [(X0, Y0)] n (by omega) I0
    (by simp [push]) (by omega)
  have hleave : leave w x1 X1 X1 = x1 := by simp [leave]
  have henter1 : enter w x0 X0 X1 = w * X1 := by rw [enter, if_neg (by omega)]
  obtain ⟨k, e2, h1, h2, h3, h4, h5, h6⟩ := column_spec hD hdy hnm (le_refl _) (by rw [hleave, henter1]; exact hx1) I n (by nlinarith)
    (fuel_ok hD hdy hw (by rw [hleave, henter1]; linarith) I n hn)
  rw [hleave] at e2 h1 h2
  have hnm1 := between _ _ hh1 hh1'
  have hlt : height dy x0 h0 x1 < (Y + k + 1) * D := lt_of_le_of_ne h2 (hnm1 _)
  have hY1 : Y + k = Y1 := by
    have a := lt_of_mul_lt_mul_right (lt_trans h1 hh1') hD.le
    have b := lt_of_mul_lt_mul_right (lt_trans hh1 hlt) hD.le
    omega
  obtain ⟨l, hl⟩ := rows_head X1 Y k acc'
  refine ⟨_, Y, acc', height dy x0 h0 x1 - Y1 * D, rows X1 Y k ++ acc', e, ?_, ?_, ?_, h4, h5, ?_, h6⟩
  · rw [hp]
    have : height dy x0 h0 (w * X1) - Y * D + dy * (x1 - w * X1) = height dy x0 h0 x1 - Y * D := by unfold height; ring
    rw [this, e2, hY1]
  · intro h
    apply hnm1 (Y1 + 1)
    linarith
  · intro p
    rw [h3]
    constructor
    · exact fun h => h.1
    · intro h; exact ⟨h, by have := h.2.1; omega⟩
  · rw [hl, hY1]; rfl

end Asc

/-! ## The other lines are mirror images -/

def mirror (p : Px) : Px := (p.1, -p.2)

theorem push_mirror (acc : List Px) (x y : Int) : push (acc.map mirror) (x, -y) = (push acc (x, y)).map mirror := by
  unfold push
  cases acc with
  | nil => simp [mirror]
  | cons a acc =>
    obtain ⟨u, v⟩ := a
    simp only [List.map_cons, List.head?_cons, mirror, Option.some.injEq, Prod.mk.injEq, neg_inj]
    split <;> simp [mirror]

def mirrorRes (D : Int) (r : Int × Int × List Px) : Int × Int × List Px := (D - r.1, -r.2.1, r.2.2.map mirror)

theorem drop_mirror (D x : Int) : ∀ (n : Nat) (sub y : Int) (acc : List Px),
    climb D x n (D - sub) (-y) (acc.map mirror) = (drop D x n sub y acc).map (mirrorRes D) := by
  intro n
  induction n with
  | zero => intro sub y acc; rfl
  | succ n ih =>
    intro sub y acc
    unfold climb drop
    by_cases h : sub < 0
    · rw [if_pos (by omega), if_pos h, ← ih, ← push_mirror]
      congr 1
      · ring
      · ring
      · congr 2; ring
    · rw [if_neg (by omega), if_neg h]
      simp [mirrorRes]

theorem descend_mirror (D step endX : Int) (m : Nat) : ∀ (n : Nat) (x y sub : Int) (acc : List Px),
    ascend D (-step) endX m n x (-y) (D - sub) (acc.map mirror) = (descend D step endX m n x y sub acc).map (mirrorRes D) := by
  intro n
  induction n with
  | zero => intro x y sub acc; rfl
  | succ n ih =>
    intro x y sub acc
    unfold ascend descend
    rw [push_mirror, drop_mirror]
    cases drop D x m sub y (push acc (x, y)) with
    | none => rfl
    | some r =>
      obtain ⟨sub', y', acc'⟩ := r
      simp only [Option.map_some, Option.bind_eq_bind, Option.bind_some, mirrorRes]
      by_cases h : sub' = 0
      · have h' : D - sub' = D := by omega
        rw [if_pos h', if_pos h]
        by_cases hx : x + 1 = endX
        · simp only [hx, if_true, Option.map_some, mirrorRes]
          simp only [Option.some.injEq, Prod.mk.injEq, and_true]
          constructor <;> ring
        · simp only [hx, if_false]
          rw [← ih]
          congr 1 <;> ring
      · have h' : ¬ D - sub' = D := by omega
        simp only [h, h', if_false]
        by_cases hx : x + 1 = endX
        · simp only [hx, if_true, Option.map_some, mirrorRes]
        · simp only [hx, if_false]
          rw [← ih]
          congr 1; ring

/-! ## The segment -/

theorem meets_swap {s : Int} {b e p : Px} : Meets s b e p ↔ Meets s e b p := by
  have key : ∀ b e : Px, Meets s b e p → Meets s e b p := by
    rintro b e ⟨t, h0, h1, a1, a2, a3, a4⟩
    refine ⟨1 - t, by linarith, by linarith, ?_, ?_, ?_, ?_⟩ <;> linarith
  exact ⟨key b e, key e b⟩

theorem meets_mirror {s : Int} {b e p : Px} : Meets s (b.1, s - 1 - b.2) (e.1, s - 1 - e.2) (mirror p) ↔ Meets s b e p := by
  unfold Meets mirror
  apply exists_congr
  intro t
  simp only
  push_cast
  constructor
  · rintro ⟨h0, h1, a1, a2, a3, a4⟩
    refine ⟨h0, h1, a1, a2, ?_, ?_⟩ <;> linarith
  · rintro ⟨h0, h1, a1, a2, a3, a4⟩
    refine ⟨h0, h1, a1, a2, ?_, ?_⟩ <;> linarith

/-- Meeting a pixel in terms of the heights at the column borders, for lines with `dx > 0` and `dy ≥ 0`. -/
theorem met_iff {s : Int} (hs : 0 < s) {b e : Px} (hx : b.1 / s < e.1 / s) (hy : b.2 ≤ e.2) (p : Px) :
    Met (2 * s * (e.1 - b.1)) (2 * s) (e.2 - b.2) (2 * b.1 + 1) (2 * e.1 + 1) ((2 * b.2 + 1) * (e.1 - b.1)) (b.1 / s) (e.1 / s) p ↔
      Meets s b e p := by
  obtain ⟨X, Y⟩ := p
  have hb := Int.emod_add_mul_ediv b.1 s
  have he := Int.emod_add_mul_ediv e.1 s
  have hb1 := Int.emod_nonneg b.1 hs.ne'
  have hb2 := Int.emod_lt_of_pos b.1 hs
  have he1 := Int.emod_nonneg e.1 hs.ne'
  have he2 := Int.emod_lt_of_pos e.1 hs
  have hdx : 0 < e.1 - b.1 := by
    by_contra hc
    have : e.1 / s ≤ b.1 / s := Int.ediv_le_ediv hs (by omega)
    omega
  generalize hX0 : b.1 / s = X0 at *
  generalize hX1 : e.1 / s = X1 at *
  have B1 : 2 * s * X0 < 2 * b.1 + 1 := by linarith
  have B2 : 2 * b.1 + 1 < 2 * s * (X0 + 1) := by linarith
  have E1 : 2 * s * X1 < 2 * e.1 + 1 := by linarith
  have E2 : 2 * e.1 + 1 < 2 * s * (X1 + 1) := by linarith
  set dx := e.1 - b.1 with hdxd
  set dy := e.2 - b.2 with hdyd
  have hdy : 0 ≤ dy := by omega
  have hsQ : (0 : ℚ) < s := by exact_mod_cast hs
  have hdxQ : (0 : ℚ) < dx := by exact_mod_cast hdx
  have hdyQ : (0 : ℚ) ≤ dy := by exact_mod_cast hdy
  have ex : (e.1 : ℚ) - b.1 = dx := by rw [hdxd]; push_cast; ring
  have ey : (e.2 : ℚ) - b.2 = dy := by rw [hdyd]; push_cast; ring
  have odd : ∀ a : Int, (2 * b.2 + 1) * dx ≠ a * (2 * s * dx) := by
    intro a h
    have h1 : (2 * b.2 + 1) * dx = (2 * (a * s)) * dx := by rw [h]; ring
    have := Int.eq_of_mul_eq_mul_right hdx.ne' h1
    omega
  constructor
  · rintro ⟨h1, h2, h3, h4⟩
    simp only at h1 h2 h3 h4
    set en := enter (2 * s) (2 * b.1 + 1) X0 X with hen
    set lv := leave (2 * s) (2 * e.1 + 1) X1 X with hlv
    -- borders
    have m0 : ∀ u v : Int, u ≤ v → 2 * s * u ≤ 2 * s * v := fun u v h => mul_le_mul_of_nonneg_left h (by omega)
    have en1 : 2 * b.1 + 1 ≤ en ∧ 2 * s * X ≤ en := by
      rw [hen, enter]
      split
      · rename_i h; rw [h]; exact ⟨le_refl _, B1.le⟩
      · exact ⟨le_trans B2.le (m0 _ _ (by omega)), le_refl _⟩
    have lv1 : lv ≤ 2 * e.1 + 1 ∧ lv ≤ 2 * s * (X + 1) := by
      rw [hlv, leave]
      split
      · rename_i h; rw [h]; exact ⟨le_refl _, E2.le⟩
      · exact ⟨le_trans (m0 _ _ (by omega)) E1.le, le_refl _⟩
    have enlv : en < lv := by
      rw [hen, hlv, enter, leave]
      split <;> split
      · omega
      · rename_i h _; rw [h]; exact B2
      · rename_i h; rw [h]; exact E1
      · have := m0 X X (le_refl _); linarith
    -- a point strictly between
    obtain ⟨x, hx1, hx2, hx3, hx4⟩ : ∃ x : ℚ, (en : ℚ) < x ∧ x < lv ∧ (Y : ℚ) * (2 * s * dx) < (2 * b.2 + 1) * dx + dy * (x - (2 * b.1 + 1)) ∧
        (2 * b.2 + 1) * dx + dy * (x - (2 * b.1 + 1)) < ((Y : ℚ) + 1) * (2 * s * dx) := by
      have h3Q : ((2 * b.2 + 1) * dx + dy * (en - (2 * b.1 + 1)) : ℚ) < ((Y : ℚ) + 1) * (2 * s * dx) := by
        unfold height at h3; exact_mod_cast h3
      have h4Q : (Y : ℚ) * (2 * s * dx) < (2 * b.2 + 1) * dx + dy * (lv - (2 * b.1 + 1)) := by
        unfold height at h4; exact_mod_cast h4
      have elQ : (en : ℚ) < lv := by exact_mod_cast enlv
      rcases hdy.lt_or_eq with hp | hp
      · have hpQ : (0 : ℚ) < dy := by exact_mod_cast hp
        set f : ℚ → ℚ := fun x => (2 * b.2 + 1) * dx + dy * (x - (2 * b.1 + 1)) with hf
        set inv : ℚ → ℚ := fun h => (h - (2 * b.2 + 1) * dx) / dy + (2 * b.1 + 1) with hinv
        have fi : ∀ h, f (inv h) = h := by intro h; simp only [hf, hinv]; field_simp; ring
        have mono : ∀ a c, f a < f c → a < c := by
          intro a c h
          simp only [hf] at h
          by_contra hc
          have : (dy : ℚ) * c ≤ dy * a := mul_le_mul_of_nonneg_left (by linarith) hpQ.le
          linarith
        set lo : ℚ := max (Y * (2 * s * dx)) (f en) with hlo
        set hi : ℚ := min ((Y + 1) * (2 * s * dx)) (f lv) with hhi
        have hDQ : (0 : ℚ) < 2 * s * dx := by positivity
        have lohi : lo < hi := by
          rw [hlo, hhi, max_lt_iff, lt_min_iff, lt_min_iff]
          refine ⟨⟨by linarith, h4Q⟩, h3Q, ?_⟩
          simp only [hf]
          have : (dy : ℚ) * en < dy * lv := mul_lt_mul_of_pos_left elQ hpQ
          linarith
        refine ⟨inv ((lo + hi) / 2), ?_, ?_, ?_, ?_⟩
        · apply mono; rw [fi]
          have : f en ≤ lo := le_max_right _ _
          linarith
        · apply mono; rw [fi]
          have : hi ≤ f lv := min_le_right _ _
          linarith
        · change _ < f (inv _); rw [fi]
          have : Y * (2 * s * dx) ≤ lo := le_max_left _ _
          linarith
        · change f (inv _) < _; rw [fi]
          have : hi ≤ (Y + 1) * (2 * s * dx) := min_le_left _ _
          linarith
      · have hz : (dy : ℚ) = 0 := by rw [← hp]; simp
        rw [hz] at h3Q h4Q ⊢
        exact ⟨(en + lv) / 2, by linarith, by linarith, by simpa using h4Q, by simpa using h3Q⟩
    have en1Q : ((2 * b.1 + 1 : Int) : ℚ) ≤ en ∧ ((2 * s * X : Int) : ℚ) ≤ en := ⟨by exact_mod_cast en1.1, by exact_mod_cast en1.2⟩
    have lv1Q : (lv : ℚ) ≤ ((2 * e.1 + 1 : Int) : ℚ) ∧ (lv : ℚ) ≤ ((2 * s * (X + 1) : Int) : ℚ) := ⟨by exact_mod_cast lv1.1, by exact_mod_cast lv1.2⟩
    push_cast at en1Q lv1Q
    set t : ℚ := (x - (2 * b.1 + 1)) / (2 * dx) with ht
    have htx : x = 2 * b.1 + 1 + t * (2 * dx) := by rw [ht]; field_simp; ring
    have hty : (2 * b.2 + 1) * dx + dy * (x - (2 * b.1 + 1)) = (2 * b.2 + 1 + t * (2 * dy)) * dx := by rw [htx]; ring
    rw [hty] at hx3 hx4
    have hx3' : (2 * s * Y : ℚ) < 2 * b.2 + 1 + t * (2 * dy) := lt_of_mul_lt_mul_right (by linarith) hdxQ.le
    have hx4' : 2 * b.2 + 1 + t * (2 * dy) < (2 * s * (Y + 1) : ℚ) := lt_of_mul_lt_mul_right (by linarith) hdxQ.le
    refine ⟨t, ?_, ?_, ?_, ?_, ?_, ?_⟩
    · rw [ht]; apply div_nonneg <;> linarith
    · rw [ht, div_le_one (by linarith)]; linarith
    · rw [ex]; linarith
    · rw [ex]; linarith
    · rw [ey]; linarith
    · rw [ey]; linarith
  · rintro ⟨t, t0, t1, a1, a2, a3, a4⟩
    simp only at a1 a2 a3 a4
    rw [ex] at a1 a2
    rw [ey] at a3 a4
    set x : ℚ := 2 * b.1 + 1 + t * (2 * dx) with hxdef
    have x0 : (2 * b.1 + 1 : ℚ) ≤ x := by rw [hxdef]; nlinarith
    have x1 : x ≤ 2 * e.1 + 1 := by
      have : (2 * e.1 + 1 : ℚ) = 2 * b.1 + 1 + 1 * (2 * dx) := by rw [← ex]; ring
      rw [this, hxdef]
      have := mul_le_mul_of_nonneg_right t1 (by linarith : (0 : ℚ) ≤ 2 * dx)
      linarith
    have hxX : (2 * s * X : ℚ) < x := by rw [hxdef]; linarith
    have hxX' : x < (2 * s * (X + 1) : ℚ) := by rw [hxdef]; linarith
    have B1Q : (2 * s * X0 : ℚ) < 2 * b.1 + 1 := by exact_mod_cast B1
    have B2Q : (2 * b.1 + 1 : ℚ) < 2 * s * (X0 + 1) := by exact_mod_cast B2
    have E1Q : (2 * s * X1 : ℚ) < 2 * e.1 + 1 := by exact_mod_cast E1
    have E2Q : (2 * e.1 + 1 : ℚ) < 2 * s * (X1 + 1) := by exact_mod_cast E2
    have col : ∀ u v : Int, (2 * s * u : ℚ) < 2 * s * (v + 1) → u ≤ v := by
      intro u v h
      have := lt_of_mul_lt_mul_left h (by linarith : (0 : ℚ) ≤ 2 * s)
      have : u < v + 1 := by exact_mod_cast this
      omega
    have en_le : ((enter (2 * s) (2 * b.1 + 1) X0 X : Int) : ℚ) ≤ x := by
      rw [enter]; split
      · push_cast; exact x0
      · push_cast; exact hxX.le
    have le_lv : x ≤ ((leave (2 * s) (2 * e.1 + 1) X1 X : Int) : ℚ) := by
      rw [leave]; split
      · push_cast; exact x1
      · push_cast; exact hxX'.le
    have hv : ((2 * b.2 + 1) * dx + dy * (x - (2 * b.1 + 1)) : ℚ) = (2 * b.2 + 1 + t * (2 * dy)) * dx := by rw [hxdef]; ring
    have lowQ : (Y : ℚ) * (2 * s * dx) < (2 * b.2 + 1) * dx + dy * (x - (2 * b.1 + 1)) := by
      rw [hv]
      have := mul_lt_mul_of_pos_right (show (2 * s * Y : ℚ) < 2 * b.2 + 1 + t * (2 * dy) by linarith) hdxQ
      linarith
    have highQ : ((2 * b.2 + 1) * dx + dy * (x - (2 * b.1 + 1)) : ℚ) < (Y + 1) * (2 * s * dx) := by
      rw [hv]
      have := mul_lt_mul_of_pos_right (show 2 * b.2 + 1 + t * (2 * dy) < (2 * s * (Y + 1) : ℚ) by linarith) hdxQ
      linarith
    refine ⟨col _ _ (by linarith), col _ _ (by linarith), ?_, ?_⟩
    · have h := mul_le_mul_of_nonneg_left en_le hdyQ
      have : ((height dy (2 * b.1 + 1) ((2 * b.2 + 1) * dx) (enter (2 * s) (2 * b.1 + 1) X0 X) : Int) : ℚ) < (((Y + 1) * (2 * s * dx) : Int) : ℚ) := by
        unfold height; push_cast; linarith
      exact_mod_cast this
    · have h := mul_le_mul_of_nonneg_left le_lv hdyQ
      have : (((Y * (2 * s * dx) : Int)) : ℚ) < ((height dy (2 * b.1 + 1) ((2 * b.2 + 1) * dx) (leave (2 * s) (2 * e.1 + 1) X1 X) : Int) : ℚ) := by
        unfold height; push_cast; linarith
      exact_mod_cast this

/-! ## Vertical lines -/

theorem vertical_spec (x y0 endY : Int) (r : Nat) : ∀ (k n : Nat), y0 + k + r = endY → r + 1 ≤ n →
    vertical x endY n (y0 + k + 1) (rows x y0 k) = some (rows x y0 (k + r)) := by
  induction r with
  | zero =>
    intro k n h hn
    obtain ⟨n, rfl⟩ : ∃ m, n = m + 1 := ⟨n - 1, by omega⟩
    unfold vertical
    rw [if_neg (by push_cast at h; omega)]
    rfl
  | succ r ih =>
    intro k n h hn
    obtain ⟨n, rfl⟩ : ∃ m, n = m + 1 := ⟨n - 1, by omega⟩
    unfold vertical
    rw [if_pos (by push_cast at h; omega)]
    have hp : push (rows x y0 k) (x, y0 + k + 1) = rows x y0 (k + 1) := by
      obtain ⟨l, hl⟩ := rows_head x y0 k []
      rw [List.append_nil] at hl
      unfold push
      rw [if_neg]
      · rw [rows]; push_cast; rw [← add_assoc]
      · rw [hl]; simp
    have := ih (k + 1) n (by push_cast at h ⊢; omega) (by omega)
    rw [hp, show k + (r + 1) = k + 1 + r by omega, ← this]
    push_cast
    rw [← add_assoc]

theorem vert_meets {s : Int} (hs : 0 < s) {b e : Px} (hx : b.1 / s = e.1 / s) (hy : b.2 ≤ e.2) (p : Px) :
    Meets s b e p ↔ p.1 = b.1 / s ∧ b.2 / s ≤ p.2 ∧ p.2 ≤ e.2 / s := by
  obtain ⟨X, Y⟩ := p
  have bounds : ∀ a : Int, (s * (a / s : Int) : ℚ) < a + 1 / 2 ∧ (a + 1 / 2 : ℚ) < s * ((a / s : Int) + 1) := by
    intro a
    have h1 := Int.emod_add_mul_ediv a s
    have h2 := Int.emod_nonneg a hs.ne'
    have h3 := Int.emod_lt_of_pos a hs
    have h4 : s * (a / s) ≤ a := by linarith
    have h5 : a + 1 ≤ s * (a / s + 1) := by linarith
    have h4Q : (s * (a / s : Int) : ℚ) ≤ a := by exact_mod_cast h4
    have h5Q : (a + 1 : ℚ) ≤ s * ((a / s : Int) + 1) := by exact_mod_cast h5
    constructor <;> linarith
  have hsQ : (0 : ℚ) < s := by exact_mod_cast hs
  have col : ∀ u v : Int, (s * u : ℚ) < s * (v + 1) → u ≤ v := by
    intro u v h
    have := lt_of_mul_lt_mul_left h hsQ.le
    have : u < v + 1 := by exact_mod_cast this
    omega
  obtain ⟨bx1, bx2⟩ := bounds b.1
  obtain ⟨ex1, ex2⟩ := bounds e.1
  obtain ⟨by1, by2⟩ := bounds b.2
  obtain ⟨ey1, ey2⟩ := bounds e.2
  rw [← hx] at ex1 ex2
  generalize b.1 / s = X0 at *
  generalize b.2 / s = Yb at *
  generalize e.2 / s = Ye at *
  have hyQ : (b.2 : ℚ) ≤ e.2 := by exact_mod_cast hy
  have inside : ∀ t : ℚ, 0 ≤ t → t ≤ 1 → (s * X0 : ℚ) < b.1 + 1 / 2 + t * (e.1 - b.1) ∧
      b.1 + 1 / 2 + t * (e.1 - b.1) < (s * (X0 + 1) : ℚ) := by
    intro t t0 t1
    have e0 : b.1 + 1 / 2 + t * (e.1 - b.1) = (1 - t) * (b.1 + 1 / 2) + t * ((e.1 : ℚ) + 1 / 2) := by ring
    rw [e0]
    rcases t0.lt_or_eq with tp | tp
    · have a1 := mul_lt_mul_of_pos_left ex1 tp
      have a2 := mul_lt_mul_of_pos_left ex2 tp
      have a3 := mul_le_mul_of_nonneg_left bx1.le (by linarith : (0 : ℚ) ≤ 1 - t)
      have a4 := mul_le_mul_of_nonneg_left bx2.le (by linarith : (0 : ℚ) ≤ 1 - t)
      constructor <;> linarith
    · rw [← tp]; constructor <;> linarith
  constructor
  · rintro ⟨t, t0, t1, a1, a2, a3, a4⟩
    simp only at a1 a2 a3 a4
    obtain ⟨i1, i2⟩ := inside t t0 t1
    have q1 : 0 ≤ t * ((e.2 : ℚ) - b.2) := mul_nonneg t0 (by linarith)
    have q2 : t * ((e.2 : ℚ) - b.2) ≤ e.2 - b.2 := by
      have := mul_le_mul_of_nonneg_right t1 (by linarith : (0 : ℚ) ≤ e.2 - b.2)
      linarith
    have c1 := col X X0 (by linarith)
    have c2 := col X0 X (by linarith)
    exact ⟨by simp only; omega, col _ _ (by linarith), col _ _ (by linarith)⟩
  · rintro ⟨rfl, h1, h2⟩
    simp only at h1 h2
    have h1Q : (s * Yb : ℚ) ≤ s * Y := mul_le_mul_of_nonneg_left (by exact_mod_cast h1) hsQ.le
    have h2Q : (s * Y : ℚ) ≤ s * Ye := mul_le_mul_of_nonneg_left (by exact_mod_cast h2) hsQ.le
    rcases hyQ.lt_or_eq with hp | hp
    · set lo : ℚ := max (s * Y) (b.2 + 1 / 2) with hlo
      set hi : ℚ := min (s * (Y + 1)) (e.2 + 1 / 2) with hhi
      have lohi : lo < hi := by
        rw [hlo, hhi, max_lt_iff, lt_min_iff, lt_min_iff]
        exact ⟨⟨by linarith, by linarith⟩, by linarith, by linarith⟩
      have l1 : s * (Y : ℚ) ≤ lo := le_max_left _ _
      have l2 : b.2 + 1 / 2 ≤ lo := le_max_right _ _
      have u1 : hi ≤ s * (Y + 1) := min_le_left _ _
      have u2 : hi ≤ e.2 + 1 / 2 := min_le_right _ _
      have hd : (0 : ℚ) < e.2 - b.2 := by linarith
      set t : ℚ := ((lo + hi) / 2 - (b.2 + 1 / 2)) / (e.2 - b.2) with ht
      have hty : b.2 + 1 / 2 + t * (e.2 - b.2) = (lo + hi) / 2 := by
        rw [ht, div_mul_cancel₀ _ hd.ne']; ring
      have t0 : 0 ≤ t := div_nonneg (by linarith) hd.le
      have t1 : t ≤ 1 := by rw [ht, div_le_one hd]; linarith
      obtain ⟨i1, i2⟩ := inside t t0 t1
      exact ⟨t, t0, t1, i1, i2, by simp only; rw [hty]; linarith, by simp only; rw [hty]; linarith⟩
    · obtain ⟨i1, i2⟩ := inside 0 (le_refl _) (by norm_num)
      refine ⟨0, le_refl _, by norm_num, i1, i2, ?_, ?_⟩
      · simp only; linarith
      · simp only; linarith

/-! ## The mask -/

/-- What is claimed about the mask. -/
structure MaskOk (s : Int) (b e : Px) (mask : List Px) : Prop where
  nodup : mask.Nodup
  chain : List.IsChain Adjacent mask
  ends : (mask.head? = some (b.1 / s, b.2 / s) ∧ mask.getLast? = some (e.1 / s, e.2 / s)) ∨
    (mask.head? = some (e.1 / s, e.2 / s) ∧ mask.getLast? = some (b.1 / s, b.2 / s))
  mem : ∀ p, p ∈ mask ↔ Meets s b e p

theorem MaskOk.swap {s : Int} {b e : Px} {mask : List Px} (h : MaskOk s b e mask) : MaskOk s e b mask :=
  ⟨h.nodup, h.chain, h.ends.symm, fun p => by rw [h.mem, meets_swap]⟩

theorem chain_reverse {l : List Px} (h : List.IsChain Adjacent l) : List.IsChain Adjacent l.reverse := by
  rw [List.isChain_reverse]
  exact h.imp fun _ _ h => adjacent_symm h

theorem rows_ok {s : Int} (hs : 0 < s) {b e : Px} (hx : b.1 / s = e.1 / s) (hy : b.2 ≤ e.2) (K : Nat) (hK : b.2 / s + K = e.2 / s) :
    MaskOk s b e (rows (b.1 / s) (b.2 / s) K).reverse := by
  have hl := rows_last (b.1 / s) (b.2 / s) [] (b.1 / s, b.2 / s) rfl K
  obtain ⟨l, hh⟩ := rows_head (b.1 / s) (b.2 / s) K []
  have hc := rows_chain (b.1 / s) (b.2 / s) [] (List.IsChain.singleton _) K
  rw [List.append_nil] at hl hh hc
  refine ⟨List.nodup_reverse.2 (rows_nodup _ _ _), chain_reverse hc, Or.inl ⟨?_, ?_⟩, ?_⟩
  · rw [List.head?_reverse, hl]
  · rw [List.getLast?_reverse, hh, ← hx, ← hK]; rfl
  · intro p
    rw [List.mem_reverse, mem_rows, vert_meets hs hx hy, hK]

theorem vertical_ok {s : Int} (hs : 0 < s) {b e : Px} (h : 0 ≤ b.1 ∧ 0 ≤ b.2 ∧ 0 ≤ e.2) (hx : b.1 / s = e.1 / s) :
    ∃ N mask, (∀ n, N ≤ n → maskOrdered n b e s = some mask) ∧ MaskOk s b e mask := by
  have key : ∀ lo hi : Int, lo ≤ hi → min b.2 e.2 = lo → max b.2 e.2 = hi → ∃ K : Nat, lo / s + K = hi / s ∧
      ∀ n, K + 2 ≤ n → maskOrdered n b e s = some (rows (b.1 / s) (lo / s) K).reverse := by
    intro lo hi hle hmin hmax
    have hd : lo / s ≤ hi / s := Int.ediv_le_ediv hs hle
    refine ⟨(hi / s - lo / s).toNat, by omega, ?_⟩
    intro n hn
    obtain ⟨n, rfl⟩ : ∃ m, n = m + 1 := ⟨n - 1, by omega⟩
    unfold maskOrdered
    rw [if_pos h, if_pos hx]
    simp only [hmin, hmax, Option.bind_eq_bind]
    have e0 : vertical (b.1 / s) (hi / s) (n + 1) (lo / s) [(b.1 / s, lo / s)] =
        vertical (b.1 / s) (hi / s) n (lo / s + (0 : Nat) + 1) (rows (b.1 / s) (lo / s) 0) := by
      conv_lhs => unfold vertical
      rw [if_pos hd]
      simp [push, rows]
    rw [e0, vertical_spec (b.1 / s) (lo / s) (hi / s) (hi / s - lo / s).toNat 0 n (by push_cast; omega) (by omega)]
    simp
  rcases le_total b.2 e.2 with hy | hy
  · obtain ⟨K, hK, hm⟩ := key b.2 e.2 hy (min_eq_left hy) (max_eq_right hy)
    exact ⟨K + 2, _, hm, rows_ok hs hx hy K hK⟩
  · obtain ⟨K, hK, hm⟩ := key e.2 b.2 hy (min_eq_right hy) (max_eq_left hy)
    refine ⟨K + 2, _, hm, ?_⟩
    rw [hx]
    exact (rows_ok hs hx.symm hy K hK).swap

/-- `ascending_spec` for the numbers of the code. -/
theorem slanted {s : Int} (hs : 0 < s) {b e : Px} (hx : b.1 / s < e.1 / s) (hy : b.2 ≤ e.2) (n : Nat)
    (hn : 1 + 2 * s * (e.2 - b.2) ≤ n) (hn' : e.1 / s - b.1 / s ≤ n) :
    ∃ sub Y acc' subF acc, ascend (2 * s * (e.1 - b.1)) ((e.2 - b.2) * 2 * s) (e.1 / s) n n (b.1 / s) (b.2 / s)
        ((2 * (b.2 % s) + 1) * (e.1 - b.1) + (e.2 - b.2) * (2 * s - 2 * (b.1 % s) - 1)) [(b.1 / s, b.2 / s)] = some (sub, Y, acc') ∧
      climb (2 * s * (e.1 - b.1)) (e.1 / s) n (sub + (e.2 - b.2) * (2 * (e.1 % s) + 1)) Y (push acc' (e.1 / s, Y)) =
        some (subF, e.2 / s, acc) ∧ subF ≠ 2 * s * (e.1 - b.1) ∧
      (∀ p, p ∈ acc ↔ Meets s b e p) ∧ List.IsChain Adjacent acc ∧ acc.Nodup ∧
      acc.head? = some (e.1 / s, e.2 / s) ∧ acc.getLast? = some (b.1 / s, b.2 / s) := by
  have hb := Int.emod_add_mul_ediv b.1 s
  have hb1 := Int.emod_nonneg b.1 hs.ne'
  have hb2 := Int.emod_lt_of_pos b.1 hs
  have he := Int.emod_add_mul_ediv e.1 s
  have he1 := Int.emod_nonneg e.1 hs.ne'
  have he2 := Int.emod_lt_of_pos e.1 hs
  have cb := Int.emod_add_mul_ediv b.2 s
  have cb1 := Int.emod_nonneg b.2 hs.ne'
  have cb2 := Int.emod_lt_of_pos b.2 hs
  have ce := Int.emod_add_mul_ediv e.2 s
  have ce1 := Int.emod_nonneg e.2 hs.ne'
  have ce2 := Int.emod_lt_of_pos e.2 hs
  have hdx : 0 < e.1 - b.1 := by
    by_contra hc
    have : e.1 / s ≤ b.1 / s := Int.ediv_le_ediv hs (by omega)
    omega
  have hend : height (e.2 - b.2) (2 * b.1 + 1) ((2 * b.2 + 1) * (e.1 - b.1)) (2 * e.1 + 1) = (2 * e.2 + 1) * (e.1 - b.1) := by
    unfold height; ring
  have row1 : ∀ c : Int, s * (c / s) ≤ c → c / s * (2 * s * (e.1 - b.1)) < (2 * c + 1) * (e.1 - b.1) := by
    intro c hc
    have := mul_lt_mul_of_pos_right (show 2 * (s * (c / s)) < 2 * c + 1 by linarith) hdx
    linarith
  have row2 : ∀ c : Int, c + 1 ≤ s * (c / s + 1) → (2 * c + 1) * (e.1 - b.1) < (c / s + 1) * (2 * s * (e.1 - b.1)) := by
    intro c hc
    have := mul_lt_mul_of_pos_right (show 2 * c + 1 < 2 * (s * (c / s + 1)) by linarith) hdx
    linarith
  obtain ⟨sub, Y, acc', subF, acc, e1, e2, e3, e4, e5⟩ := ascending_spec (D := 2 * s * (e.1 - b.1)) (w := 2 * s) (dy := e.2 - b.2)
    (x0 := 2 * b.1 + 1) (x1 := 2 * e.1 + 1) (h0 := (2 * b.2 + 1) * (e.1 - b.1)) (X0 := b.1 / s) (X1 := e.1 / s) (Y0 := b.2 / s) (Y1 := e.2 / s)
    (by positivity) (by omega) (by omega) (by linarith) (by linarith) (by linarith) (by linarith) hx
    (row1 _ (by linarith)) (row2 _ (by linarith)) (by rw [hend]; exact row1 _ (by linarith)) (by rw [hend]; exact row2 _ (by linarith)) n hn hn'
  refine ⟨sub, Y, acc', subF, acc, ?_, ?_, e3, ?_, e5⟩
  · rw [← e1]
    congr 1
    · ring
    · unfold height
      linear_combination (2 * (e.1 - b.1)) * cb + (-2 * (e.2 - b.2)) * hb
  · rw [← e2]
    congr 1
    linear_combination (2 * (e.2 - b.2)) * he
  · intro p
    rw [e4, met_iff hs hx hy]

theorem climb_mono (D x : Int) (n : Nat) : ∀ (sub y : Int) (acc : List Px) (r : Int × Int × List Px),
    climb D x n sub y acc = some r → ∀ m, n ≤ m → climb D x m sub y acc = some r := by
  induction n with
  | zero => intro sub y acc r h; simp [climb] at h
  | succ n ih =>
    intro sub y acc r h m hm
    obtain ⟨m, rfl⟩ : ∃ k, m = k + 1 := ⟨m - 1, by omega⟩
    unfold climb at h ⊢
    split
    · rename_i hc; rw [if_pos hc] at h; exact ih _ _ _ _ h m (by omega)
    · rename_i hc; rw [if_neg hc] at h; exact h

theorem ascend_mono (D st x1 : Int) (n : Nat) : ∀ (x y sub : Int) (acc : List Px) (r : Int × Int × List Px) (k : Nat),
    ascend D st x1 k n x y sub acc = some r → ∀ m k', n ≤ m → k ≤ k' → ascend D st x1 k' m x y sub acc = some r := by
  induction n with
  | zero => intro x y sub acc r k h; simp [ascend] at h
  | succ n ih =>
    intro x y sub acc r k h m k' hm hk
    obtain ⟨m, rfl⟩ : ∃ k, m = k + 1 := ⟨m - 1, by omega⟩
    unfold ascend at h ⊢
    cases hc : climb D x k sub y (push acc (x, y)) with
    | none => rw [hc] at h; simp at h
    | some q =>
      rw [hc] at h
      rw [climb_mono _ _ _ _ _ _ _ hc k' hk]
      obtain ⟨q1, q2, q3⟩ := q
      simp only [Option.bind_eq_bind, Option.bind_some] at h ⊢
      by_cases hx : x + 1 = x1
      · simpa [hx] using h
      · simp only [hx, if_false] at h ⊢
        exact ih _ _ _ _ _ _ h m k' (by omega) hk

theorem mirror_mirror (p : Px) : mirror (mirror p) = p := by simp [mirror]

theorem map_mirror_mirror (l : List Px) : (l.map mirror).map mirror = l := by
  rw [List.map_map]
  conv_rhs => rw [← List.map_id l]
  exact List.map_congr_left fun p _ => mirror_mirror p

theorem mirrorRes_inv {D : Int} {o : Option (Int × Int × List Px)} {a y : Int} {l : List Px}
    (h : o.map (mirrorRes D) = some (a, y, l)) : o = some (D - a, -y, l.map mirror) := by
  cases o with
  | none => simp at h
  | some r =>
    obtain ⟨r1, r2, r3⟩ := r
    simp only [Option.map_some, mirrorRes, Option.some.injEq, Prod.mk.injEq] at h ⊢
    obtain ⟨h1, h2, h3⟩ := h
    refine ⟨by omega, by omega, ?_⟩
    rw [← h3, map_mirror_mirror]

theorem ordered_ok {s : Int} (hs : 0 < s) {b e : Px} (h : 0 ≤ b.1 ∧ 0 ≤ b.2 ∧ 0 ≤ e.2) (hx : b.1 ≤ e.1) :
    ∃ N mask, (∀ n, N ≤ n → maskOrdered n b e s = some mask) ∧ MaskOk s b e mask := by
  by_cases hv : b.1 / s = e.1 / s
  · exact vertical_ok hs h hv
  have hlt : b.1 / s < e.1 / s := lt_of_le_of_ne (Int.ediv_le_ediv hs hx) hv
  have hmax : max b.1 e.1 / s = e.1 / s := by rw [max_eq_right hx]
  by_cases hy : e.2 - b.2 > 0
  · set N := (1 + 2 * s * (e.2 - b.2) + (e.1 / s - b.1 / s)).toNat with hN
    have hpos : 0 ≤ 2 * s * (e.2 - b.2) := by positivity
    obtain ⟨sub, Y, acc', subF, acc, e1, e2, e3, e4, e5, e6, e7, e8⟩ := slanted hs hlt (by omega) N (by omega) (by omega)
    refine ⟨N, acc.reverse, ?_, ⟨List.nodup_reverse.2 e6, chain_reverse e5, Or.inl ⟨?_, ?_⟩, ?_⟩⟩
    · intro n hn
      unfold maskOrdered
      rw [if_pos h, if_neg hv]
      simp only [hmax, hy, if_true, ascend_mono _ _ _ _ _ _ _ _ _ _ e1 n n hn hn, Option.bind_eq_bind, Option.bind_some,
        climb_mono _ _ _ _ _ _ _ e2 n hn]
      rw [if_pos ⟨e3, trivial⟩]
    · rw [List.head?_reverse, e8]
    · rw [List.getLast?_reverse, e7]
    · intro p; rw [List.mem_reverse, e4]
  · have dm : ∀ a : Int, (s - 1 - a) / s = -(a / s) ∧ (s - 1 - a) % s = s - 1 - a % s := by
      intro a
      have h1 := Int.emod_add_mul_ediv a s
      have h2 := Int.emod_nonneg a hs.ne'
      have h3 := Int.emod_lt_of_pos a hs
      have := (Int.ediv_emod_unique (a := s - 1 - a) (r := s - 1 - a % s) (q := -(a / s)) hs).2
        ⟨by linear_combination -h1, by omega, by omega⟩
      exact this
    set N := (1 + 2 * s * (b.2 - e.2) + (e.1 / s - b.1 / s)).toNat with hN
    have hpos : 0 ≤ 2 * s * (b.2 - e.2) := mul_nonneg (by omega) (by omega)
    obtain ⟨sub, Y, acc', subF, acc, e1, e2, e3, e4, e5, e6, e7, e8⟩ := slanted (b := (b.1, s - 1 - b.2)) (e := (e.1, s - 1 - e.2))
      hs hlt (by simp only; omega) N (by
        simp only
        rw [show s - 1 - e.2 - (s - 1 - b.2) = b.2 - e.2 by ring]
        omega) (by simp only; omega)
    simp only [(dm _).1, (dm _).2, show s - 1 - e.2 - (s - 1 - b.2) = b.2 - e.2 by ring] at e1 e2 e3 e7 e8
    refine ⟨N, (acc.map mirror).reverse, ?_, ⟨?_, ?_, Or.inl ⟨?_, ?_⟩, ?_⟩⟩
    · intro n hn
      have d1 : descend (2 * s * (e.1 - b.1)) ((e.2 - b.2) * 2 * s) (e.1 / s) n n (b.1 / s) (b.2 / s)
          ((2 * (b.2 % s) + 1) * (e.1 - b.1) + (e.2 - b.2) * (2 * s - 2 * (b.1 % s) - 1)) [(b.1 / s, b.2 / s)] =
          some (2 * s * (e.1 - b.1) - sub, -Y, acc'.map mirror) := by
        apply mirrorRes_inv
        rw [← descend_mirror, ← ascend_mono _ _ _ _ _ _ _ _ _ _ e1 n n hn hn]
        congr 1 <;> ring
      have d2 : drop (2 * s * (e.1 - b.1)) (e.1 / s) n (2 * s * (e.1 - b.1) - sub + (e.2 - b.2) * (2 * (e.1 % s) + 1)) (-Y)
          (push (acc'.map mirror) (e.1 / s, -Y)) = some (2 * s * (e.1 - b.1) - subF, e.2 / s, acc.map mirror) := by
        rw [show e.2 / s = -(-(e.2 / s)) by ring]
        apply mirrorRes_inv
        rw [← drop_mirror, ← climb_mono _ _ _ _ _ _ _ e2 n hn, ← push_mirror, map_mirror_mirror]
        congr 1
        · ring
        · ring
        · congr 2; ring
      unfold maskOrdered
      rw [if_pos h, if_neg hv]
      simp only [hmax, hy, if_false, d1, Option.bind_eq_bind, Option.bind_some, d2]
      rw [if_pos ⟨by omega, trivial⟩]
    · rw [List.nodup_reverse]
      exact List.Nodup.map (fun p q h => by rw [← mirror_mirror p, h, mirror_mirror]) e6
    · apply chain_reverse
      rw [List.isChain_map]
      refine e5.imp ?_
      rintro ⟨a1, a2⟩ ⟨b1, b2⟩ h
      simp only [Adjacent, mirror, ne_eq, Prod.mk.injEq, neg_inj] at h ⊢
      rw [show -a2 - -b2 = -(a2 - b2) by ring, abs_neg]
      exact h
    · rw [List.head?_reverse, List.getLast?_map, e8]; simp [mirror]
    · rw [List.getLast?_reverse, List.head?_map, e7]; simp [mirror]
    · intro p
      rw [List.mem_reverse, ← meets_mirror, ← e4, List.mem_map]
      constructor
      · rintro ⟨q, hq, rfl⟩; rw [mirror_mirror]; exact hq
      · intro hq; exact ⟨_, hq, mirror_mirror p⟩

/-- C20: for every pair of points in the checked domain and every positive scale the ray mask is computed without a failed
CHECK, it is a chain of distinct pixels, each next to (possibly diagonally) the one before, from the pixel of one end point to that of the other, and it
consists of exactly the pixels whose interior is met by the segment between the centres of the two sub-pixels. -/
theorem ray_mask_exact (s : Int) (hs : 0 < s) (b e : Px) (hb : 0 ≤ b.1 ∧ 0 ≤ b.2) (he : 0 ≤ e.1 ∧ 0 ≤ e.2) :
    ∃ N mask, (∀ n, N ≤ n → rayToPixelMask n b e s = some mask) ∧ MaskOk s b e mask := by
  unfold rayToPixelMask
  by_cases hx : b.1 > e.1
  · obtain ⟨N, mask, h, ok⟩ := ordered_ok hs ⟨he.1, he.2, hb.2⟩ (by omega : e.1 ≤ b.1)
    refine ⟨N, mask, ?_, ok.swap⟩
    intro n hn
    rw [if_neg hs.ne', if_pos hx, h n hn]
  · obtain ⟨N, mask, h, ok⟩ := ordered_ok hs ⟨hb.1, hb.2, he.2⟩ (by omega : b.1 ≤ e.1)
    refine ⟨N, mask, ?_, ok⟩
    intro n hn
    rw [if_neg hs.ne', if_neg hx, h n hn]

/-- A negative coordinate fails a CHECK. -/
theorem ray_mask_negative (n : Nat) (s : Int) (b e : Px) (h : b.2 < 0 ∨ e.2 < 0 ∨ min b.1 e.1 < 0) :
    rayToPixelMask n b e s = none := by
  unfold rayToPixelMask maskOrdered
  split
  · rfl
  · split
    · rw [if_neg (by omega)]
    · rw [if_neg (by omega)]

example : rayToPixelMask 100 (5, 5) (0, 2) 2 = some [(0, 1), (1, 1), (1, 2), (2, 2)] := by decide

example : rayToPixelMask 100 (0, 5) (5, 0) 2 = some [(0, 2), (1, 1), (2, 0)] := by decide

example : rayToPixelMask 100 (3, 9) (3, 2) 2 = some [(1, 1), (1, 2), (1, 3), (1, 4)] := by decide

end Verif.Ray
