import Verif.Histogram
import Verif.Props.Time
import Mathlib.Algebra.BigOperators.Group.List.Basic
import Mathlib.Algebra.Order.BigOperators.Group.List

/-!
# C47: every value is counted in exactly one row of a printed histogram
-/

namespace Verif.Histo

/-! ### Specification -/

/-- A value belongs to a row: rows are half open, the last one is closed. -/
def Row.Contains (row : Row) (last : Bool) (v : ℚ) : Prop :=
  row.lower ≤ v ∧ (v < row.upper ∨ last = true ∧ v = row.upper)

/-- Row number `i` exists and the value belongs to it. -/
def InRow (l : List Row) (i : Nat) (v : ℚ) : Prop := ∃ row, l[i]? = some row ∧ row.Contains (decide (i + 1 = l.length)) v

/-! ### Lemmas -/

theorem minimum_le (a : ℚ) (l : List ℚ) : ∀ v ∈ a :: l, minimum a l ≤ v := by
  induction l generalizing a with
  | nil => simp [minimum]
  | cons b l ih =>
    intro v hv
    have h0 := ih (min a b) (min a b) (by simp)
    simp only [List.mem_cons] at hv
    rw [minimum]
    rcases hv with rfl | rfl | hv
    · exact le_trans h0 (min_le_left _ _)
    · exact le_trans h0 (min_le_right _ _)
    · exact ih _ v (by simp [hv])

theorem le_maximum (a : ℚ) (l : List ℚ) : ∀ v ∈ a :: l, v ≤ maximum a l := by
  induction l generalizing a with
  | nil => simp [maximum]
  | cons b l ih =>
    intro v hv
    have h0 := ih (max a b) (max a b) (by simp)
    simp only [List.mem_cons] at hv
    rw [maximum]
    rcases hv with rfl | rfl | hv
    · exact le_trans (le_max_left _ _) h0
    · exact le_trans (le_max_right _ _) h0
    · exact ih _ v (by simp [hv])

theorem minimum_mem (a : ℚ) (l : List ℚ) : minimum a l ∈ a :: l := by
  induction l generalizing a with
  | nil => simp [minimum]
  | cons b l ih =>
    rw [minimum]
    rcases List.mem_cons.1 (ih (min a b)) with h | h
    · rw [h]; rcases min_choice a b with h | h <;> rw [h] <;> simp
    · simp [h]

theorem maximum_mem (a : ℚ) (l : List ℚ) : maximum a l ∈ a :: l := by
  induction l generalizing a with
  | nil => simp [maximum]
  | cons b l ih =>
    rw [maximum]
    rcases List.mem_cons.1 (ih (max a b)) with h | h
    · rw [h]; rcases max_choice a b with h | h <;> rw [h] <;> simp
    · simp [h]

/-- The bound at which row `i` begins. -/
def bnd (r : ℚ → ℚ) (lo hi : ℚ) (n : Nat) : Nat → ℚ
  | 0 => lo
  | i + 1 => upperBound r lo hi n i

/-- The values counted in row `i`. -/
def cnt (r : ℚ → ℚ) (lo hi : ℚ) (n : Nat) (values : List ℚ) (i : Nat) : Nat :=
  values.countP (inRow n i (bnd r lo hi n i) (bnd r lo hi n (i + 1)))

theorem loop_length (r : ℚ → ℚ) (lo hi : ℚ) (n : Nat) (values : List ℚ) (k i : Nat) (lower : ℚ) (total : Nat) :
    (loop r lo hi n values k i lower total).length = k := by
  induction k generalizing i lower total with
  | zero => rfl
  | succ k ih => simp [loop, ih]

theorem loop_get (r : ℚ → ℚ) (lo hi : ℚ) (n : Nat) (values : List ℚ) (k i : Nat) (total : Nat) (j : Nat)
    (hj : j < (loop r lo hi n values k i (bnd r lo hi n i) total).length) :
    (loop r lo hi n values k i (bnd r lo hi n i) total)[j] =
      ⟨bnd r lo hi n (i + j), bnd r lo hi n (i + j + 1), cnt r lo hi n values (i + j),
        total + ((List.range (j + 1)).map fun m => cnt r lo hi n values (i + m)).sum⟩ := by
  induction k generalizing i total j with
  | zero => simp [loop] at hj
  | succ k ih =>
    cases j with
    | zero => simp [loop, cnt, bnd]
    | succ j =>
      have h := ih (i + 1) (total + cnt r lo hi n values i) j (by
        simp only [loop_length] at hj ⊢; omega)
      have e : (loop r lo hi n values (k + 1) i (bnd r lo hi n i) total)[j + 1]'hj =
          (loop r lo hi n values k (i + 1) (bnd r lo hi n (i + 1)) (total + cnt r lo hi n values i))[j]'(by
            simp only [loop_length] at hj ⊢; omega) := by
        simp only [loop, List.getElem_cons_succ]; rfl
      rw [e, h]
      have s : ((List.range (j + 1 + 1)).map fun m => cnt r lo hi n values (i + m)).sum =
          cnt r lo hi n values i + ((List.range (j + 1)).map fun m => cnt r lo hi n values (i + 1 + m)).sum := by
        rw [List.range_succ_eq_map]
        simp only [List.map_cons, List.sum_cons, Nat.add_zero, List.map_map]
        congr 3
        ext m
        simp only [Function.comp, Nat.succ_eq_add_one]
        congr 1
        omega
      rw [s]
      simp only [Row.mk.injEq]
      refine ⟨?_, ?_, ?_, ?_⟩
      · congr 1; omega
      · congr 1; omega
      · congr 1; omega
      · omega

/-- The printed rows, in terms of the bounds. -/
theorem rows_spec {r : ℚ → ℚ} {values : List ℚ} {buckets : Int} {l : List Row} (h : rows r values buckets = some l)
    (hne : l ≠ []) : ∃ lo hi : ℚ, lo < hi ∧ lo ∈ values ∧ hi ∈ values ∧ (∀ v ∈ values, lo ≤ v ∧ v ≤ hi) ∧ 1 ≤ buckets ∧ l.length = buckets.toNat ∧
      bnd r lo hi l.length 0 = lo ∧ bnd r lo hi l.length l.length = hi ∧
      ∀ i (hi' : i < l.length), l[i] = ⟨bnd r lo hi l.length i, bnd r lo hi l.length (i + 1),
        cnt r lo hi l.length values i, ((List.range (i + 1)).map (cnt r lo hi l.length values)).sum⟩ := by
  unfold rows at h
  split at h
  · cases h
  rename_i hb
  cases values with
  | nil => simp at h; exact absurd h hne
  | cons v t =>
    simp only at h
    split at h
    · simp at h; exact absurd h hne
    · rename_i hm
      injection h with h
      have hlen : l.length = buckets.toNat := by rw [← h, loop_length]
      have h1 := minimum_le v t
      have h2 := le_maximum v t
      refine ⟨minimum v t, maximum v t, lt_of_le_of_ne (le_trans (h1 v (by simp)) (h2 v (by simp))) hm, minimum_mem v t, maximum_mem v t,
        fun w hw => ⟨h1 w hw, h2 w hw⟩, by omega, hlen, rfl, ?_, ?_⟩
      · rw [hlen]
        obtain ⟨n, hn⟩ : ∃ n, buckets.toNat = n + 1 := ⟨buckets.toNat - 1, by omega⟩
        rw [hn]; simp [bnd, upperBound]
      · intro i hi'
        subst h
        have := loop_get r (minimum v t) (maximum v t) buckets.toNat (v :: t) buckets.toNat 0 0 i hi'
        refine Eq.trans this ?_
        simp only [hlen, Nat.zero_add]

/-- The rows that count a value are the rows it belongs to. -/
theorem inRow_iff {n i : Nat} {a b v : ℚ} :
    inRow n i a b v = true ↔ a ≤ v ∧ (v < b ∨ decide (i + 1 = n) = true ∧ v = b) := by
  unfold inRow
  by_cases h : i + 1 = n
  · simp [h, le_iff_lt_or_eq]
  · simp [h]

/-- Summing over rows the number of values is summing over values the number of rows. -/
theorem double_count (values : List ℚ) (p : Nat → ℚ → Bool) (l : List Nat) :
    (l.map fun i => values.countP (p i)).sum = (values.map fun v => l.countP fun i => p i v).sum := by
  induction l with
  | nil => simp
  | cons i l ih =>
    simp only [List.map_cons, List.sum_cons, ih]
    clear ih
    induction values with
    | nil => simp
    | cons v values ih =>
      simp only [List.countP_cons, List.map_cons, List.sum_cons] at ih ⊢
      split_ifs <;> omega

/-- A value between the first and the last bound belongs to some row, whatever the bounds are. -/
theorem exists_row {b : Nat → ℚ} {n : Nat} {v : ℚ} (hn : 0 < n) (h0 : b 0 ≤ v) (h1 : v ≤ b n) :
    ∃ i, i < n ∧ inRow n i (b i) (b (i + 1)) v = true := by
  by_contra hcon
  push Not at hcon
  have key : ∀ i, i < n → b i ≤ v := by
    intro i
    induction i with
    | zero => exact fun _ => h0
    | succ i ih =>
      intro hi
      by_contra hlt
      push Not at hlt
      exact hcon i (by omega) (inRow_iff.2 ⟨ih (by omega), Or.inl hlt⟩)
  obtain ⟨m, rfl⟩ : ∃ m, n = m + 1 := ⟨n - 1, by omega⟩
  refine hcon m (by omega) (inRow_iff.2 ⟨key m (by omega), ?_⟩)
  rcases h1.lt_or_eq with h | h
  · exact Or.inl h
  · exact Or.inr ⟨by simp, h⟩

/-- If the bounds do not decrease, it belongs to only one row. -/
theorem unique_row {b : Nat → ℚ} {n : Nat} {v : ℚ} (hb : ∀ i, i < n → b i ≤ b (i + 1)) {i j : Nat} (hi : i < n) (hj : j < n)
    (h1 : inRow n i (b i) (b (i + 1)) v = true) (h2 : inRow n j (b j) (b (j + 1)) v = true) : i = j := by
  have mono : ∀ k m, k ≤ m → m ≤ n → b k ≤ b m := by
    intro k m hkm
    induction hkm with
    | refl => exact fun _ => le_rfl
    | step hkm ih => intro hm; exact le_trans (ih (by omega)) (hb _ (by omega))
  rw [inRow_iff] at h1 h2
  simp only [decide_eq_true_eq] at h1 h2
  rcases Nat.lt_trichotomy i j with h | h | h
  · have := mono (i + 1) j (by omega) (by omega)
    rcases h1.2 with h3 | h3
    · exact absurd (le_trans this h2.1) (not_le.2 h3)
    · omega
  · exact h
  · have := mono (j + 1) i (by omega) (by omega)
    rcases h2.2 with h3 | h3
    · exact absurd (le_trans this h1.1) (not_le.2 h3)
    · omega

theorem countP_range_eq_one {n : Nat} {p : Nat → Bool} (h : ∃! i, i < n ∧ p i = true) : (List.range n).countP p = 1 := by
  obtain ⟨i, ⟨h1, h2⟩, h3⟩ := h
  have : (List.range n).filter p = [i] := by
    have hn : ((List.range n).filter p).Nodup := List.nodup_range.filter _
    have hm : ∀ x, x ∈ (List.range n).filter p ↔ x = i := by
      intro x
      simp only [List.mem_filter, List.mem_range]
      exact ⟨fun hx => h3 x hx, fun hx => hx ▸ ⟨h1, h2⟩⟩
    have hp : ((List.range n).filter p).Perm [i] := by
      rw [List.perm_ext_iff_of_nodup hn (by simp)]
      simpa using hm
    exact List.perm_singleton.1 hp
  rw [List.countP_eq_length_filter, this]; rfl

/-- The bounds printed do not decrease. -/
def Ascending (l : List Row) : Prop := ∀ row ∈ l, row.lower ≤ row.upper

theorem inRow_rows {r : ℚ → ℚ} {lo hi : ℚ} {values : List ℚ} {l : List Row}
    (hl : ∀ i (hi' : i < l.length), l[i] = ⟨bnd r lo hi l.length i, bnd r lo hi l.length (i + 1),
        cnt r lo hi l.length values i, ((List.range (i + 1)).map (cnt r lo hi l.length values)).sum⟩) (i : Nat) (v : ℚ) :
    InRow l i v ↔ i < l.length ∧ inRow l.length i (bnd r lo hi l.length i) (bnd r lo hi l.length (i + 1)) v = true := by
  unfold InRow
  constructor
  · rintro ⟨row, h1, h2⟩
    obtain ⟨hi', rfl⟩ := List.getElem?_eq_some_iff.1 h1
    refine ⟨hi', inRow_iff.2 ?_⟩
    rw [hl i hi'] at h2
    exact h2
  · rintro ⟨hi', h⟩
    refine ⟨l[i], List.getElem?_eq_getElem hi', ?_⟩
    rw [hl i hi']
    exact inRow_iff.1 h

/-- The total of the last row counts for each value the rows it belongs to. -/
theorem total_eq {r : ℚ → ℚ} {values : List ℚ} {lo hi : ℚ} {l : List Row} (hne : l ≠ [])
    (hl : ∀ i (hi' : i < l.length), l[i] = ⟨bnd r lo hi l.length i, bnd r lo hi l.length (i + 1),
        cnt r lo hi l.length values i, ((List.range (i + 1)).map (cnt r lo hi l.length values)).sum⟩) :
    (l.getLast hne).total = (values.map fun v => (List.range l.length).countP fun i =>
      inRow l.length i (bnd r lo hi l.length i) (bnd r lo hi l.length (i + 1)) v).sum := by
  have hpos : 0 < l.length := List.length_pos_iff.2 hne
  rw [List.getLast_eq_getElem, hl _ (by omega)]
  simp only
  rw [show l.length - 1 + 1 = l.length by omega, ← double_count]
  rfl

theorem sum_map_one (values : List ℚ) (f : ℚ → Nat) (h : ∀ v ∈ values, f v = 1) : (values.map f).sum = values.length := by
  induction values with
  | nil => rfl
  | cons v l ih =>
    simp only [List.map_cons, List.sum_cons, List.length_cons, h v (by simp), ih fun w hw => h w (by simp [hw])]
    omega

theorem length_le_sum (values : List ℚ) (f : ℚ → Nat) (h : ∀ v ∈ values, 1 ≤ f v) : values.length ≤ (values.map f).sum := by
  induction values with
  | nil => simp
  | cons v l ih =>
    have := h v (by simp)
    have := ih fun w hw => h w (by simp [hw])
    simp only [List.map_cons, List.sum_cons, List.length_cons]
    omega

/-! ### Theorems -/

/-- Rows are printed exactly if there are two different values; then there are as many rows as asked for. -/
theorem rows_printed (r : ℚ → ℚ) (values : List ℚ) {buckets : Int} (hb : 1 ≤ buckets) :
    ∃ l, rows r values buckets = some l ∧ (l ≠ [] ↔ ∃ v ∈ values, ∃ w ∈ values, v ≠ w) ∧
      (l ≠ [] → l.length = buckets.toNat) := by
  have hb' : ¬ buckets < 1 := by omega
  unfold rows
  rw [if_neg hb']
  cases values with
  | nil => exact ⟨[], rfl, by simp, by simp⟩
  | cons v t =>
    simp only
    split
    · rename_i hm
      refine ⟨[], rfl, ?_, by simp⟩
      simp only [ne_eq, not_true_eq_false, false_iff]
      rintro ⟨x, hx, y, hy, hxy⟩
      apply hxy
      have h1 := minimum_le v t x hx
      have h2 := minimum_le v t y hy
      have h3 := le_maximum v t x hx
      have h4 := le_maximum v t y hy
      rw [← hm] at h3 h4
      exact (le_antisymm h3 h1).trans (le_antisymm h2 h4)
    · rename_i hm
      refine ⟨_, rfl, ?_, fun _ => loop_length ..⟩
      refine ⟨fun _ => ⟨_, minimum_mem v t, _, maximum_mem v t, hm⟩, fun _ h => ?_⟩
      have := loop_length r (minimum v t) (maximum v t) buckets.toNat (v :: t) buckets.toNat 0 (minimum v t) 0
      rw [h, List.length_nil] at this
      omega

/-- Each row shows the number of values that belong to it, and the sum of the counts so far. -/
theorem row_count {r : ℚ → ℚ} {values : List ℚ} {buckets : Int} {l : List Row} (h : rows r values buckets = some l)
    {i : Nat} {row : Row} (hi : l[i]? = some row) :
    (∃ p : ℚ → Bool, (∀ v, p v = true ↔ InRow l i v) ∧ row.count = values.countP p) ∧
      row.total = ((l.take (i + 1)).map Row.count).sum := by
  have hne : l ≠ [] := by rintro rfl; simp at hi
  obtain ⟨lo, hi', -, -, -, -, -, -, -, -, hl⟩ := rows_spec h hne
  obtain ⟨hlt, rfl⟩ := List.getElem?_eq_some_iff.1 hi
  refine ⟨⟨inRow l.length i (bnd r lo hi' l.length i) (bnd r lo hi' l.length (i + 1)), fun v => ?_, by rw [hl i hlt]; rfl⟩, ?_⟩
  · rw [inRow_rows hl]; simp [hlt]
  · rw [hl i hlt]
    simp only
    congr 1
    apply List.ext_getElem
    · simp; omega
    · intro j h1 h2
      simp only [List.length_map, List.length_range, List.length_take] at h1 h2
      simp only [List.getElem_map, List.getElem_range, List.getElem_take]
      rw [hl j (by omega)]

/-- **C47, whatever the rounding.** Every value belongs to at least one row, so the total of the last row is at least the
number of values. -/
theorem counted_at_least_once {r : ℚ → ℚ} {values : List ℚ} {buckets : Int} {l : List Row}
    (h : rows r values buckets = some l) (hne : l ≠ []) :
    (∀ v ∈ values, ∃ i, InRow l i v) ∧ values.length ≤ (l.getLast hne).total := by
  obtain ⟨lo, hi, -, -, -, hv, -, -, h0, h1, hl⟩ := rows_spec h hne
  have hex : ∀ v ∈ values, ∃ i, i < l.length ∧
      inRow l.length i (bnd r lo hi l.length i) (bnd r lo hi l.length (i + 1)) v = true := fun v hm =>
    exists_row (b := bnd r lo hi l.length) (List.length_pos_iff.2 hne) (by rw [h0]; exact (hv v hm).1)
      (by rw [h1]; exact (hv v hm).2)
  refine ⟨fun v hm => ?_, ?_⟩
  · obtain ⟨i, hi⟩ := hex v hm
    exact ⟨i, (inRow_rows hl i v).2 hi⟩
  · rw [total_eq hne hl]
    apply length_le_sum
    intro v hm
    obtain ⟨i, h2, h3⟩ := hex v hm
    exact List.countP_pos_iff.2 ⟨i, List.mem_range.2 h2, h3⟩

/-- **C47, as long as the bounds do not decrease.** Every value belongs to exactly one row and the total of the last row is
the number of values. -/
theorem counted_once_ascending {r : ℚ → ℚ} {values : List ℚ} {buckets : Int} {l : List Row}
    (h : rows r values buckets = some l) (hne : l ≠ []) (ha : Ascending l) :
    (∀ v ∈ values, ∃! i, InRow l i v) ∧ (l.getLast hne).total = values.length := by
  obtain ⟨hex, -⟩ := counted_at_least_once h hne
  obtain ⟨lo, hi, -, -, -, hv, -, -, h0, h1, hl⟩ := rows_spec h hne
  have hmono : ∀ i, i < l.length → bnd r lo hi l.length i ≤ bnd r lo hi l.length (i + 1) := by
    intro i hi'
    have := ha _ (List.getElem_mem hi')
    rw [hl i hi'] at this
    exact this
  have huniq : ∀ v ∈ values, ∃! i, InRow l i v := by
    intro v hm
    obtain ⟨i, hi'⟩ := hex v hm
    refine ⟨i, hi', ?_⟩
    intro j hj
    rw [inRow_rows hl] at hi' hj
    exact unique_row hmono hj.1 hi'.1 hj.2 hi'.2
  refine ⟨huniq, ?_⟩
  rw [total_eq hne hl]
  apply sum_map_one
  intro v hm
  apply countP_range_eq_one
  have := huniq v hm
  simpa only [inRow_rows hl] using this

/-- The exact bounds. -/
def exactBound (lo hi : ℚ) (n i : Nat) : ℚ := (hi * i + lo * (n - i)) / n

theorem term_error {r : ℚ → ℚ} {u m M : ℚ} (hu : 0 ≤ u) (hm : m ≤ M) (hM0 : 0 ≤ M) (hr : ∀ x, |r x - x| ≤ u * max |x| m)
    {a : ℚ} (ha : |a| ≤ M) {k n : Nat} (hkn : k ≤ n) (hn : 0 < n) :
    |r (r (a * k) / n) - a * k / n| ≤ u * M * (2 + u) := by
  have hn' : (1 : ℚ) ≤ n := by exact_mod_cast hn
  have hkn' : (k : ℚ) ≤ n := by exact_mod_cast hkn
  have hk0 : (0 : ℚ) ≤ k := by positivity
  have h1 := hr (a * k)
  have hak : |a * k| ≤ M * n := by
    rw [abs_mul, abs_of_nonneg hk0]
    exact mul_le_mul ha hkn' hk0 hM0
  have h1' : |r (a * k) - a * k| ≤ u * (M * n) := by
    refine le_trans h1 (mul_le_mul_of_nonneg_left (max_le hak ?_) hu)
    nlinarith
  have h2 : |r (a * k) / n - a * k / n| ≤ u * M := by
    rw [← sub_div, abs_div, abs_of_pos (by linarith : (0 : ℚ) < n), div_le_iff₀ (by linarith)]
    linarith
  have h3 : |a * k / n| ≤ M := by
    rw [abs_div, abs_of_pos (by linarith : (0 : ℚ) < n), div_le_iff₀ (by linarith)]
    exact hak
  have h4 : |r (a * k) / n| ≤ M + u * M := by
    have := abs_sub_abs_le_abs_sub (r (a * k) / n) (a * k / n)
    linarith
  have h5 := hr (r (a * k) / n)
  have h6 : |r (r (a * k) / n) - r (a * k) / n| ≤ u * (M + u * M) :=
    le_trans h5 (mul_le_mul_of_nonneg_left (max_le h4 (by nlinarith [mul_nonneg hu hM0])) hu)
  have := abs_sub_le (r (r (a * k) / n)) (r (a * k) / n) (a * k / n)
  nlinarith

theorem bound_error {r : ℚ → ℚ} {u m M : ℚ} (hu : 0 ≤ u) (hu8 : u ≤ 1 / 8) (hm : m ≤ M)
    (hr : ∀ x, |r x - x| ≤ u * max |x| m) {lo hi : ℚ} (hlo : |lo| ≤ M) (hhi : |hi| ≤ M) {n : Nat} (hn : 0 < n) {i : Nat}
    (hi' : i ≤ n) : |bnd r lo hi n i - exactBound lo hi n i| ≤ 6 * u * M := by
  have hM0 : 0 ≤ M := le_trans (abs_nonneg _) hlo
  have hn' : (n : ℚ) ≠ 0 := by positivity
  have huM : 0 ≤ u * M := mul_nonneg hu hM0
  cases i with
  | zero =>
    have : exactBound lo hi n 0 = lo := by unfold exactBound; push_cast; field_simp; ring
    rw [this]; simp only [bnd, sub_self, abs_zero]; linarith
  | succ i =>
    rw [bnd, upperBound]
    by_cases h : i + 1 = n
    · have : exactBound lo hi n (i + 1) = hi := by
        unfold exactBound; rw [h]; field_simp; ring
      rw [if_pos h, this]; simp only [sub_self, abs_zero]; linarith
    · rw [if_neg h]
      have t1 := term_error hu hm hM0 hr hhi (k := i + 1) hi' hn
      have t2 := term_error hu hm hM0 hr hlo (k := n - i - 1) (by omega) hn
      set A := r (r (hi * (i + 1 : Nat)) / n)
      set B := r (r (lo * (n - i - 1 : Nat)) / n)
      have hsub : ((n - i - 1 : Nat) : ℚ) = n - (i + 1 : Nat) := by
        rw [Nat.sub_sub, Nat.cast_sub hi']
      have he : exactBound lo hi n (i + 1) = hi * (i + 1 : Nat) / n + lo * (n - i - 1 : Nat) / n := by
        unfold exactBound; rw [hsub]; ring
      have hs : |A + B - exactBound lo hi n (i + 1)| ≤ 2 * (u * M * (2 + u)) := by
        rw [he]
        have := abs_add_le (A - hi * (i + 1 : Nat) / n) (B - lo * (n - i - 1 : Nat) / n)
        have e : A + B - (hi * (i + 1 : Nat) / n + lo * (n - i - 1 : Nat) / n) =
          (A - hi * (i + 1 : Nat) / n) + (B - lo * (n - i - 1 : Nat) / n) := by ring
        rw [e]; linarith
      have hex : |exactBound lo hi n (i + 1)| ≤ M := by
        have hp : (0 : ℚ) < n := by positivity
        have hi1 : ((i + 1 : Nat) : ℚ) ≤ n := by exact_mod_cast hi'
        have hi0 : (0 : ℚ) ≤ ((i + 1 : Nat) : ℚ) := by positivity
        unfold exactBound
        rw [abs_div, abs_of_pos hp, div_le_iff₀ hp]
        refine le_trans (abs_add_le _ _) ?_
        rw [abs_mul, abs_mul, abs_of_nonneg hi0, abs_of_nonneg (by linarith : 0 ≤ (n : ℚ) - (i + 1 : Nat))]
        nlinarith
      have hAB : |A + B| ≤ M + 2 * (u * M * (2 + u)) := by
        have := abs_sub_abs_le_abs_sub (A + B) (exactBound lo hi n (i + 1))
        linarith
      have hr' : |r (A + B) - (A + B)| ≤ u * (M + 2 * (u * M * (2 + u))) :=
        le_trans (hr _) (mul_le_mul_of_nonneg_left (max_le hAB (by nlinarith)) hu)
      have htri := abs_sub_le (r (A + B)) (A + B) (exactBound lo hi n (i + 1))
      have h1 : u * (u * M) ≤ 1 / 8 * (u * M) := mul_le_mul_of_nonneg_right hu8 huM
      have h2 : u * (u * (u * M)) ≤ 1 / 8 * (1 / 8 * (u * M)) := by
        have := mul_le_mul_of_nonneg_right hu8 (mul_nonneg hu huM)
        nlinarith
      nlinarith

/-- **C47, with rounding.** The statement also holds for rounded arithmetic with relative error `u` (absolute error below the
smallest normal number `m`), if two values are further apart than twelve rounding errors per bucket at the largest
magnitude `M`. -/
theorem counted_once_rounded {r : ℚ → ℚ} {u m M : ℚ} (hu : 0 ≤ u) (hu8 : u ≤ 1 / 8) (hm : m ≤ M)
    (hr : ∀ x, |r x - x| ≤ u * max |x| m) {values : List ℚ} {buckets : Int} {l : List Row}
    (h : rows r values buckets = some l) (hne : l ≠ []) (hM : ∀ v ∈ values, |v| ≤ M)
    {a b : ℚ} (hma : a ∈ values) (hmb : b ∈ values) (hab : 12 * buckets * (u * M) ≤ b - a) :
    (∀ v ∈ values, ∃! i, InRow l i v) ∧ (l.getLast hne).total = values.length := by
  refine counted_once_ascending h hne ?_
  obtain ⟨lo, hi, hlt, hlo, hhi, hv, hb, hlen, h0, h1, hl⟩ := rows_spec h hne
  intro row hrow
  obtain ⟨i, hi', rfl⟩ := List.getElem_of_mem hrow
  rw [hl i hi']
  simp only
  have hpos : 0 < l.length := List.length_pos_iff.2 hne
  have e1 := bound_error hu hu8 hm hr (hM _ hlo) (hM _ hhi) hpos (i := i) (by omega)
  have e2 := bound_error hu hu8 hm hr (hM _ hlo) (hM _ hhi) hpos (i := i + 1) (by omega)
  have hn : (l.length : ℚ) = buckets := by
    have : (l.length : Int) = buckets := by omega
    exact_mod_cast this
  have hp : (0 : ℚ) < l.length := by exact_mod_cast hpos
  have hd : exactBound lo hi l.length (i + 1) - exactBound lo hi l.length i = (hi - lo) / l.length := by
    unfold exactBound; push_cast; field_simp; ring
  have hd2 : 12 * (u * M) ≤ (hi - lo) / l.length := by
    rw [le_div_iff₀ hp, hn]
    have := (hv a hma).1
    have := (hv b hmb).2
    linarith
  rw [abs_le] at e1 e2
  linarith [e1.1, e1.2, e2.1, e2.2]

/-- **C47 (partial).** In exact arithmetic every value belongs to exactly one row and the total of the last row is the
number of values. Missing: the arithmetic of `float` for values close to each other, for which the statement is false
(`counted_twice`). -/
theorem counted_once_partial {values : List ℚ} {buckets : Int} {l : List Row} (h : rows id values buckets = some l)
    (hne : l ≠ []) : (∀ v ∈ values, ∃! i, InRow l i v) ∧ (l.getLast hne).total = values.length := by
  obtain ⟨lo, hi, hlt, hlo, hhi, hv, -⟩ := rows_spec h hne
  refine counted_once_rounded (u := 0) (m := 0) (M := max |lo| |hi|) le_rfl (by norm_num) (by positivity) (by simp) h hne
    ?_ hlo hlo (by simp)
  intro v hm
  exact abs_le_max_abs_abs (hv v hm).1 (hv v hm).2

theorem rnd32_error (x : ℚ) : |rnd32 x - x| ≤ 2 ^ (-24 : Int) * max |x| (2 ^ (-126 : Int)) := by
  by_cases hx : x = 0
  · subst hx
    have : rnd32 0 = 0 := by
      have := Ticks.roundEven_int 0
      push_cast at this
      simp [rnd32, this]
    rw [this]
    simp only [sub_self, abs_zero]
    positivity
  have hx0 : 0 < |x| := abs_pos.2 hx
  have hp : 0 < ulp32 x := zpow_pos (by norm_num) _
  have h := Ticks.roundEven_error (x / ulp32 x)
  have : rnd32 x - x = ((Ticks.roundEven (x / ulp32 x) : ℚ) - x / ulp32 x) * ulp32 x := by
    unfold rnd32; field_simp
  rw [this, abs_mul, abs_of_pos hp]
  have h2 : |(Ticks.roundEven (x / ulp32 x) : ℚ) - x / ulp32 x| * ulp32 x ≤ ulp32 x / 2 := by nlinarith
  refine le_trans h2 ?_
  have h3 : ulp32 x / 2 = 2 ^ (-24 : Int) * 2 ^ (max (Int.log 2 |x|) (-126)) := by
    unfold ulp32
    rw [← zpow_add₀ (by norm_num), div_eq_mul_inv, ← zpow_sub_one₀ (by norm_num)]
    congr 1; ring
  rw [h3]
  refine mul_le_mul_of_nonneg_left ?_ (by positivity)
  rcases le_total (Int.log 2 |x|) (-126) with hle | hle
  · rw [max_eq_right hle]; exact le_max_right _ _
  · rw [max_eq_left hle]
    refine le_trans ?_ (le_max_left _ _)
    exact_mod_cast Int.zpow_log_le_self (b := 2) (by norm_num) hx0

/-- **C47, for `float`.** The statement holds for the arithmetic of `float` if two values are further apart than
`12 · buckets · 2⁻²⁴` times the largest magnitude. -/
theorem counted_once_float {M : ℚ} (hM1 : 2 ^ (-126 : Int) ≤ M) {values : List ℚ} {buckets : Int} {l : List Row}
    (h : rows rnd32 values buckets = some l) (hne : l ≠ []) (hM : ∀ v ∈ values, |v| ≤ M)
    {a b : ℚ} (hma : a ∈ values) (hmb : b ∈ values) (hab : 12 * buckets * M ≤ 2 ^ 24 * (b - a)) :
    (∀ v ∈ values, ∃! i, InRow l i v) ∧ (l.getLast hne).total = values.length := by
  refine counted_once_rounded (u := 2 ^ (-24 : Int)) (m := 2 ^ (-126 : Int)) (M := M) (by positivity) (by norm_num) hM1
    rnd32_error h hne hM hma hmb ?_
  have : (2 : ℚ) ^ (-24 : Int) = 1 / 2 ^ 24 := by norm_num
  rw [this]
  norm_num at hab ⊢
  linarith

/-! ### Concrete histograms -/

/-- In exact arithmetic: the values 0, 1, 2, 4 in two rows. -/
example : rows id [1, 0, 4, 2] 2 = some [⟨0, 2, 2, 2⟩, ⟨2, 4, 2, 4⟩] := by
  decide +kernel

/-- **C47, negation.** In the arithmetic of `float` the two values 13482090 and 13482091 in four rows are counted as three:
the first one belongs to the first and to the last row. -/
theorem counted_twice : rows rnd32 [13482090, 13482091] 4 =
    some [⟨13482090, 13482091, 1, 1⟩, ⟨13482091, 13482090, 0, 1⟩, ⟨13482090, 13482090, 0, 1⟩,
      ⟨13482090, 13482091, 2, 3⟩] := by
  decide +kernel

/-- With ten rows, the number used throughout the code: scores within a few roundings of 1. -/
theorem counted_twice_ten : ((rows rnd32 [1, 1 + 2 / 8388608, 1 + 3 / 8388608] 10).map fun l => l.map Row.total) =
    some [0, 1, 1, 1, 1, 1, 1, 2, 2, 4] := by
  decide +kernel

end Verif.Histo
