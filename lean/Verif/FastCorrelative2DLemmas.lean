import Verif.FastCorrelative2D
import Mathlib.Data.List.Induction
import Mathlib.Order.Lattice
import Mathlib.Tactic.Linarith

/-!
# Lemmas about the sliding window maximum and the precomputed grids
-/

namespace Verif.FastCorrelative

section Sliding

variable {α : Type} [LinearOrder α]

/-- The values of a window that no later value exceeds. -/
def maxima : List α → List α
  | [] => []
  | v :: w => if ∀ x ∈ w, x ≤ v then v :: maxima w else maxima w

theorem maxima_mem {w : List α} {x : α} (h : x ∈ maxima w) : x ∈ w := by
  induction w with
  | nil => exact h
  | cons v w ih =>
    unfold maxima at h
    split at h
    · rcases List.mem_cons.1 h with rfl | h
      · simp
      · exact List.mem_cons_of_mem _ (ih h)
    · exact List.mem_cons_of_mem _ (ih h)

theorem maxima_sorted (w : List α) : (maxima w).Pairwise (fun a b => b ≤ a) := by
  induction w with
  | nil => exact List.Pairwise.nil
  | cons v w ih =>
    unfold maxima
    split
    · rename_i h
      exact List.pairwise_cons.2 ⟨fun x hx => h x (maxima_mem hx), ih⟩
    · exact ih

theorem maxima_head {w : List α} (h : w ≠ []) : ∃ m, (maxima w).head? = some m ∧ m ∈ w ∧ ∀ x ∈ w, x ≤ m := by
  induction w with
  | nil => exact absurd rfl h
  | cons v w ih =>
    unfold maxima
    split
    · rename_i hv
      exact ⟨v, rfl, by simp, by simpa using hv⟩
    · rename_i hv
      have hw : w ≠ [] := by rintro rfl; exact hv (by simp)
      obtain ⟨m, h1, h2, h3⟩ := ih hw
      refine ⟨m, h1, by simp [h2], ?_⟩
      intro x hx
      rcases List.mem_cons.1 hx with rfl | hx
      · by_contra hlt
        exact hv (fun y hy => (h3 y hy).trans (le_of_lt (not_le.1 hlt)))
      · exact h3 x hx

theorem addValue_sorted {d : List α} (hd : d.Pairwise (fun a b => b ≤ a)) (v : α) :
    addValue d v = d.filter (fun m => decide (v ≤ m)) ++ [v] := by
  unfold addValue
  congr 1
  induction d using List.reverseRecOn with
  | nil => rfl
  | append_singleton d b ih =>
    obtain ⟨h1, -, h2⟩ := List.pairwise_append.1 hd
    rw [List.reverse_append, List.filter_append]
    simp only [List.reverse_singleton, List.singleton_append, List.dropWhile_cons]
    by_cases hb : b < v
    · rw [if_pos (by simpa using hb), ih h1]
      simp [not_le.2 hb]
    · rw [if_neg (by simpa using hb)]
      have hb' := not_lt.1 hb
      rw [List.reverse_cons, List.reverse_reverse]
      rw [List.filter_eq_self.2, List.filter_eq_self.2]
      · simpa using hb'
      · intro a ha
        exact decide_eq_true (hb'.trans (h2 a ha b (by simp)))

theorem maxima_append (w : List α) (v : α) :
    maxima (w ++ [v]) = (maxima w).filter (fun m => decide (v ≤ m)) ++ [v] := by
  induction w with
  | nil => simp [maxima]
  | cons a w ih =>
    rw [List.cons_append]
    unfold maxima
    rw [ih]
    by_cases ha : ∀ x ∈ w, x ≤ a
    · rw [if_pos ha]
      by_cases hv : v ≤ a
      · rw [if_pos, List.filter_cons, if_pos (by simpa using hv)]
        · rfl
        · intro x hx
          rcases List.mem_append.1 hx with hx | hx
          · exact ha x hx
          · rw [List.mem_singleton] at hx; rw [hx]; exact hv
      · rw [if_neg, List.filter_cons, if_neg (by simpa using hv)]
        intro h
        exact hv (h v (by simp))
    · rw [if_neg ha, if_neg]
      intro h
      exact ha (fun x hx => h x (by simp [hx]))

theorem addValue_maxima (w : List α) (v : α) : addValue (maxima w) v = maxima (w ++ [v]) := by
  rw [addValue_sorted (maxima_sorted w), maxima_append]

theorem removeValue_maxima (w : List α) (v : α) : removeValue (maxima (v :: w)) v = some (maxima w) := by
  rw [show maxima (v :: w) = if ∀ x ∈ w, x ≤ v then v :: maxima w else maxima w from rfl]
  split
  · rename_i h
    simp [removeValue]
  · rename_i hv
    have hw : w ≠ [] := by rintro rfl; exact hv (by simp)
    obtain ⟨m, h1, h2, h3⟩ := maxima_head hw
    obtain ⟨d, hd⟩ : ∃ d, maxima w = m :: d := by
      cases hm : maxima w with
      | nil => rw [hm] at h1; cases h1
      | cons a d => rw [hm] at h1; obtain rfl := Option.some.inj h1; exact ⟨d, rfl⟩
    have hlt : v < m := by
      by_contra hlt
      exact hv (fun y hy => (h3 y hy).trans (not_lt.1 hlt))
    rw [hd]
    simp [removeValue, hlt.le, hlt.ne]

/-- The values `f lo, …, f (hi - 1)`. -/
def win (f : Nat → α) (lo hi : Nat) : List α := (List.range' lo (hi - lo)).map f

omit [LinearOrder α] in
theorem win_snoc (f : Nat → α) {lo hi : Nat} (h : lo ≤ hi) : win f lo (hi + 1) = win f lo hi ++ [f hi] := by
  unfold win
  rw [show hi + 1 - lo = (hi - lo) + 1 from by omega, List.range'_concat, List.map_append]
  simp [show lo + (hi - lo) = hi from by omega]

omit [LinearOrder α] in
theorem win_cons (f : Nat → α) {lo hi : Nat} (h : lo < hi) : win f lo hi = f lo :: win f (lo + 1) hi := by
  unfold win
  rw [show hi - lo = (hi - (lo + 1)) + 1 from by omega, List.range'_succ]
  rfl

omit [LinearOrder α] in
theorem win_empty (f : Nat → α) (lo : Nat) : win f lo lo = [] := by simp [win]

/-- `m` is the largest of `f lo, …, f (hi - 1)`. -/
def Largest (f : Nat → α) (lo hi : Nat) (m : α) : Prop :=
  (∃ i, lo ≤ i ∧ i < hi ∧ f i = m) ∧ ∀ i, lo ≤ i → i < hi → f i ≤ m

theorem getMaximum_win {f : Nat → α} {lo hi : Nat} (h : lo < hi) :
    ∃ m, getMaximum (maxima (win f lo hi)) = some m ∧ Largest f lo hi m := by
  have hne : win f lo hi ≠ [] := by rw [win_cons f h]; simp
  obtain ⟨m, h1, h2, h3⟩ := maxima_head hne
  refine ⟨m, h1, ?_, ?_⟩
  · simp only [win, List.mem_map, List.mem_range'_1] at h2
    obtain ⟨i, hi, rfl⟩ := h2
    exact ⟨i, hi.1, by omega, rfl⟩
  · intro i h4 h5
    apply h3
    simp only [win, List.mem_map, List.mem_range'_1]
    exact ⟨i, by omega, rfl⟩

theorem fill_spec {f : Nat → α} {n : Nat} (hn : 1 ≤ n) : ∀ (k j : Nat),
    ∃ out, fill f n k j (maxima (win f 0 (min (j + 1) n))) = some (out, maxima (win f 0 (min (j + k + 1) n))) ∧
      out.length = k ∧ ∀ i, i < k → ∃ m, out[i]? = some m ∧ Largest f 0 (min (j + i + 1) n) m := by
  intro k
  induction k with
  | zero => intro j; exact ⟨[], rfl, rfl, by intro i hi; omega⟩
  | succ k ih =>
    intro j
    obtain ⟨m, hm, hl⟩ := getMaximum_win (f := f) (lo := 0) (hi := min (j + 1) n) (by omega)
    have hd : (if j + 1 < n then addValue (maxima (win f 0 (min (j + 1) n))) (f (j + 1))
        else maxima (win f 0 (min (j + 1) n))) = maxima (win f 0 (min (j + 1 + 1) n)) := by
      split
      · rw [addValue_maxima, show min (j + 1) n = j + 1 from by omega, show min (j + 1 + 1) n = j + 1 + 1 from by omega,
          win_snoc f (hi := j + 1) (Nat.zero_le _)]
      · rw [show min (j + 1) n = n from by omega, show min (j + 1 + 1) n = n from by omega]
    obtain ⟨out, h1, h2, h3⟩ := ih (j + 1)
    refine ⟨m :: out, ?_, by simp [h2], ?_⟩
    · unfold fill
      simp only [hm, hd, h1, Option.bind_eq_bind, Option.bind_some]
      rw [show j + 1 + k + 1 = j + (k + 1) + 1 from by omega]
    · intro i hi
      cases i with
      | zero => exact ⟨m, rfl, hl⟩
      | succ i =>
        obtain ⟨m', h4, h5⟩ := h3 i (by omega)
        exact ⟨m', by simpa using h4, by rwa [show j + 1 + i + 1 = j + (i + 1) + 1 from by omega] at h5⟩

theorem shift_spec {f : Nat → α} {w : Nat} (hw : 1 ≤ w) : ∀ (k x : Nat),
    ∃ out, shift f w k x (maxima (win f x (x + w))) = some (out, maxima (win f (x + k) (x + k + w))) ∧
      out.length = k ∧ ∀ i, i < k → ∃ m, out[i]? = some m ∧ Largest f (x + i) (x + i + w) m := by
  intro k
  induction k with
  | zero => intro x; exact ⟨[], rfl, rfl, by intro i hi; omega⟩
  | succ k ih =>
    intro x
    obtain ⟨m, hm, hl⟩ := getMaximum_win (f := f) (lo := x) (hi := x + w) (by omega)
    have hr : removeValue (maxima (win f x (x + w))) (f x) = some (maxima (win f (x + 1) (x + w))) := by
      rw [win_cons f (show x < x + w by omega), removeValue_maxima]
    have ha : addValue (maxima (win f (x + 1) (x + w))) (f (x + w)) = maxima (win f (x + 1) (x + 1 + w)) := by
      rw [addValue_maxima, show x + 1 + w = (x + w) + 1 from by omega, win_snoc f (by omega)]
    obtain ⟨out, h1, h2, h3⟩ := ih (x + 1)
    refine ⟨m :: out, ?_, by simp [h2], ?_⟩
    · unfold shift
      simp only [hm, hr, ha, h1, Option.bind_eq_bind, Option.bind_some]
      rw [show x + 1 + k = x + (k + 1) from by omega]
    · intro i hi
      cases i with
      | zero => exact ⟨m, rfl, hl⟩
      | succ i =>
        obtain ⟨m', h4, h5⟩ := h3 i (by omega)
        exact ⟨m', by simpa using h4, by rwa [show x + 1 + i = x + (i + 1) from by omega] at h5⟩

theorem drain_spec {f : Nat → α} {n : Nat} : ∀ (k x : Nat), x + k = n →
    ∃ out, drain f k x (maxima (win f x n)) = some (out, []) ∧
      out.length = k ∧ ∀ i, i < k → ∃ m, out[i]? = some m ∧ Largest f (x + i) n m := by
  intro k
  induction k with
  | zero => intro x hx; exact ⟨[], by subst hx; simp [drain, win, maxima], rfl, by intro i hi; omega⟩
  | succ k ih =>
    intro x hx
    obtain ⟨m, hm, hl⟩ := getMaximum_win (f := f) (lo := x) (hi := n) (by omega)
    have hr : removeValue (maxima (win f x n)) (f x) = some (maxima (win f (x + 1) n)) := by
      rw [win_cons f (show x < n by omega), removeValue_maxima]
    obtain ⟨out, h1, h2, h3⟩ := ih (x + 1) (by omega)
    refine ⟨m :: out, ?_, by simp [h2], ?_⟩
    · unfold drain
      simp only [hm, hr, h1, Option.bind_eq_bind, Option.bind_some]
    · intro i hi
      cases i with
      | zero => exact ⟨m, rfl, hl⟩
      | succ i =>
        obtain ⟨m', h4, h5⟩ := h3 i (by omega)
        exact ⟨m', by simpa using h4, by rwa [show x + 1 + i = x + (i + 1) from by omega] at h5⟩

/-- A pass never fails and computes the maxima of all windows. -/
theorem slide_spec {f : Nat → α} {n w : Nat} (hn : 1 ≤ n) (hw : 1 ≤ w) :
    ∃ out, slide f n w = some out ∧ out.length = n + w - 1 ∧
      ∀ j, j < n + w - 1 → ∃ m, out[j]? = some m ∧ Largest f (j + 1 - w) (min (j + 1) n) m := by
  have h0 : addValue [] (f 0) = maxima (win f 0 (min (0 + 1) n)) := by
    rw [show min (0 + 1) n = 0 + 1 from by omega, win_snoc f (Nat.le_refl 0), win_empty]
    simp [addValue, maxima]
  obtain ⟨o₁, a1, a2, a3⟩ := fill_spec (f := f) hn (w - 1) 0
  have hw1 : win f 0 (min (0 + (w - 1) + 1) n) = win f 0 (min w n) := by
    rw [show 0 + (w - 1) + 1 = w from by omega]
  rw [hw1] at a1
  by_cases hwn : w ≤ n
  · obtain ⟨o₂, b1, b2, b3⟩ := shift_spec (f := f) hw (n - w) 0
    rw [show 0 + (n - w) + w = n from by omega, show 0 + w = w from by omega,
      show 0 + (n - w) = n - w from by omega] at b1
    obtain ⟨o₃, c1, c2, c3⟩ := drain_spec (f := f) (n := n) (n - (n - w)) (n - w) (by omega)
    rw [show min w n = w from by omega] at a1
    refine ⟨o₁ ++ o₂ ++ o₃, ?_, ?_, ?_⟩
    · simp [slide, h0, a1, b1, c1]
    · simp only [List.length_append]; omega
    · intro j hj
      by_cases h1 : j < w - 1
      · obtain ⟨m, e1, e2⟩ := a3 j h1
        refine ⟨m, ?_, ?_⟩
        · rw [List.append_assoc, List.getElem?_append_left (by omega), e1]
        · rw [show j + 1 - w = 0 from by omega]
          simpa using e2
      · by_cases h2 : j < n - 1
        · obtain ⟨m, e1, e2⟩ := b3 (j - (w - 1)) (by omega)
          refine ⟨m, ?_, ?_⟩
          · rw [List.append_assoc, List.getElem?_append_right (by omega), List.getElem?_append_left (by omega), a2, e1]
          · rwa [show 0 + (j - (w - 1)) + w = min (j + 1) n from by omega,
              show 0 + (j - (w - 1)) = j + 1 - w from by omega] at e2
        · obtain ⟨m, e1, e2⟩ := c3 (j - (n - 1)) (by omega)
          refine ⟨m, ?_, ?_⟩
          · rw [List.getElem?_append_right (by rw [List.length_append]; omega), List.length_append,
              show j - (o₁.length + o₂.length) = j - (n - 1) from by omega, e1]
          · rwa [show min (j + 1) n = n from by omega, show j + 1 - w = n - w + (j - (n - 1)) from by omega]
  · rw [show min w n = n from by omega] at a1
    obtain ⟨o₃, c1, c2, c3⟩ := drain_spec (f := f) (n := n) n 0 (by omega)
    refine ⟨o₁ ++ o₃, ?_, ?_, ?_⟩
    · simp [slide, h0, a1, show n - w = 0 from by omega, shift, c1]
    · simp only [List.length_append]; omega
    · intro j hj
      by_cases h1 : j < w - 1
      · obtain ⟨m, e1, e2⟩ := a3 j h1
        refine ⟨m, ?_, ?_⟩
        · rw [List.getElem?_append_left (by omega), e1]
        · rw [show j + 1 - w = 0 from by omega]
          simpa using e2
      · obtain ⟨m, e1, e2⟩ := c3 (j - (w - 1)) (by omega)
        refine ⟨m, ?_, ?_⟩
        · rw [List.getElem?_append_right (by omega), a2, e1]
        · rwa [show min (j + 1) n = n from by omega, show j + 1 - w = 0 + (j - (w - 1)) from by omega]

end Sliding

/-! ### The precomputed grids -/

theorem tabulate_spec {β : Type} {g : Nat → Option β} : ∀ {n k : Nat} {l : List β}, tabulate g n k = some l →
    l.length = n ∧ ∀ i, i < n → ∃ b, l[i]? = some b ∧ g (k + i) = some b := by
  intro n
  induction n with
  | zero =>
    intro k l h
    obtain rfl := Option.some.inj h
    exact ⟨rfl, by intro i hi; omega⟩
  | succ n ih =>
    intro k l h
    simp only [tabulate, Option.bind_eq_bind, Option.bind_eq_some_iff, Option.some.injEq] at h
    obtain ⟨b, h1, l', h2, rfl⟩ := h
    obtain ⟨h3, h4⟩ := ih h2
    refine ⟨by simp [h3], ?_⟩
    intro i hi
    cases i with
    | zero => exact ⟨b, rfl, h1⟩
    | succ i =>
      obtain ⟨b', h5, h6⟩ := h4 i (by omega)
      exact ⟨b', by simpa using h5, by rwa [show k + (i + 1) = k + 1 + i from by omega]⟩

theorem tabulate_total {β : Type} {g : Nat → Option β} : ∀ {n k : Nat}, (∀ i, i < n → (g (k + i)).isSome) →
    (tabulate g n k).isSome := by
  intro n
  induction n with
  | zero => intro k _; rfl
  | succ n ih =>
    intro k h
    obtain ⟨b, hb⟩ := Option.isSome_iff_exists.1 (h 0 (by omega))
    obtain ⟨l, hl⟩ := Option.isSome_iff_exists.1 (ih (k := k + 1) (fun i hi => by
      rw [show k + 1 + i = k + (i + 1) from by omega]; exact h (i + 1) (by omega)))
    rw [Nat.add_zero] at hb
    simp [tabulate, hb, hl]

theorem round_mono {x y : ℚ} (h : x ≤ y) : Prob.roundToInt x ≤ Prob.roundToInt y := by
  unfold Prob.roundToInt
  split <;> split
  · exact Int.floor_le_floor (by linarith)
  · linarith
  · rename_i h1 h2
    have e1 : ⌈x - 1 / 2⌉ ≤ 0 := Int.ceil_le.2 (by push_cast; linarith)
    have e2 : 0 ≤ ⌊y + 1 / 2⌋ := Int.floor_nonneg.2 (by linarith)
    omega
  · exact Int.ceil_le_ceil (by linarith)

end Verif.FastCorrelative
