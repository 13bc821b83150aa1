import Verif.ActiveSubmaps
import Mathlib.Tactic.Ring
import Mathlib.Tactic.Linarith
import Mathlib.Data.List.Induction

/-! # C22: life cycle of active submaps -/

namespace Verif.ActiveSubmaps

variable {R : Type}

/-! ## Specification -/

/-- The `i`-th submap ever created, after the range data `rs`: it starts with range data number `i * n`
and collects `2 * n` range data; it is finished exactly when it is full. -/
def specSubmap (n : Nat) (rs : List R) (i : Nat) : Submap R :=
  let d := (rs.drop (i * n)).take (2 * n)
  ⟨d, d.length, decide (d.length = 2 * n)⟩

/-- Number of submaps ever created after `k` insertions: one every `n` insertions. -/
def specCount (n k : Nat) : Nat := (k + n - 1) / n

/-! ## Proof -/

theorem insertAll_append (n : Nat) (st : State R) (a b : List R) :
    insertAll n st (a ++ b) = (insertAll n st a).bind (fun st => insertAll n st b) := by
  induction a generalizing st with
  | nil => simp [insertAll]
  | cons r rs ih =>
    simp only [List.cons_append, insertAll]
    cases insertRangeData n st r with
    | none => rfl
    | some st' => simp [ih]

private theorem specSubmap_append_full (n : Nat) (rs : List R) (r : R) (i : Nat)
    (h : (i + 2) * n ≤ rs.length) : specSubmap n (rs ++ [r]) i = specSubmap n rs i := by
  have h1 : i * n ≤ rs.length := by nlinarith
  have h2 : 2 * n ≤ (rs.drop (i * n)).length := by
    rw [List.length_drop]
    have : (i + 2) * n = i * n + 2 * n := by ring
    omega
  simp only [specSubmap, List.drop_append_of_le_length h1, List.take_append_of_le_length h2]

private theorem specSubmap_append_open (n : Nat) (rs : List R) (r : R) (i : Nat)
    (h0 : i * n ≤ rs.length) (h : rs.length < (i + 2) * n) :
    specSubmap n (rs ++ [r]) i =
      ⟨rs.drop (i * n) ++ [r], rs.length - i * n + 1, decide (rs.length - i * n + 1 = 2 * n)⟩ ∧
    specSubmap n rs i = ⟨rs.drop (i * n), rs.length - i * n, false⟩ := by
  have e : (i + 2) * n = i * n + 2 * n := by ring
  constructor
  · have h2 : (rs.drop (i * n) ++ [r]).length ≤ 2 * n := by
      simp only [List.length_append, List.length_drop, List.length_cons, List.length_nil]; omega
    simp only [specSubmap, List.drop_append_of_le_length h0, List.take_of_length_le h2]
    simp
  · have h2 : (rs.drop (i * n)).length ≤ 2 * n := by
      simp only [List.length_drop]; omega
    simp only [specSubmap, List.take_of_length_le h2, List.length_drop]
    simp; omega

/-- The state reached: `c` submaps in total, the last two (or one) of them active. -/
def specState (n : Nat) (rs : List R) : State R :=
  let c := specCount n rs.length
  ⟨(List.range (c - 2)).map (specSubmap n rs),
   ((List.range c).drop (c - 2)).map (specSubmap n rs)⟩

private theorem map_spec_erased (n : Nat) (rs : List R) (r : R) (c : Nat)
    (h : (c + 1) * n ≤ rs.length) :
    (List.range c).map (specSubmap n (rs ++ [r])) = (List.range c).map (specSubmap n rs) := by
  apply List.map_congr_left
  intro i hi
  apply specSubmap_append_full
  have : i < c := List.mem_range.1 hi
  have : (i + 2) * n ≤ (c + 1) * n := Nat.mul_le_mul_right _ (by omega)
  omega

theorem step_spec (n : Nat) (hn : 0 < n) (rs : List R) (r : R) :
    insertRangeData n (specState n rs) r = some (specState n (rs ++ [r])) := by
  -- write the number of insertions as `q * n + m` with `m < n`
  obtain ⟨q, m, hm, hk⟩ : ∃ q m, m < n ∧ rs.length = q * n + m :=
    ⟨rs.length / n, rs.length % n, Nat.mod_lt _ hn, by
      rw [Nat.mul_comm]; exact (Nat.div_add_mod _ _).symm⟩
  have hk1 : (rs ++ [r]).length = q * n + m + 1 := by simp [hk]
  have c1 : specCount n (q * n + m + 1) = q + 1 := by
    unfold specCount
    have : q * n + m + 1 + n - 1 = m + (q + 1) * n := by
      have : (q + 1) * n = q * n + n := by ring
      omega
    rw [this, Nat.add_mul_div_right _ _ hn, Nat.div_eq_of_lt hm]; omega
  rcases Nat.eq_zero_or_pos m with hm0 | hmpos
  · -- a new submap is needed
    subst hm0
    simp only [Nat.add_zero] at hk hk1 c1
    have c0 : specCount n (q * n) = q := by
      unfold specCount
      have : q * n + n - 1 = (n - 1) + q * n := by omega
      rw [this, Nat.add_mul_div_right _ _ hn, Nat.div_eq_of_lt (by omega)]; omega
    rcases q with _ | _ | q
    · -- first insertion
      have hl : rs = [] := by
        have : rs.length = 0 := by simp [hk]
        exact List.length_eq_zero_iff.1 this
      subst hl
      have h1 : (1 : Nat) ≠ 2 * n := by omega
      have h2 : 1 ≤ 2 * n := by omega
      have e1 : specCount n 0 = 0 := by simpa using c0
      have e2 : specCount n 1 = 1 := by simpa using c1
      have ht : List.take (2 * n) [r] = [r] := List.take_of_length_le (by simpa using h2)
      simp [insertRangeData, specState, e1, e2, needsNew, addSubmap, insertInto, newSubmap,
        finishFront, specSubmap, ht, h1]
    · -- second submap is created
      simp only [Nat.zero_add, Nat.one_mul] at hk hk1 c1 c0
      have hs := specSubmap_append_open n rs r 0 (by omega) (by omega)
      have hs1 := specSubmap_append_open n rs r 1 (by omega) (by omega)
      simp only [Nat.zero_mul, Nat.sub_zero, List.drop_zero, Nat.one_mul] at hs hs1
      have hd : rs.drop n = [] := List.drop_eq_nil_of_le (by omega)
      simp only [specState, hk, hk1, c0, c1]
      have r2 : (List.range 2) = [0, 1] := rfl
      simp only [Nat.reduceAdd, Nat.reduceSub, List.range_zero, List.map_nil, List.range_one,
        List.drop_zero, List.map_cons, r2]
      rw [hs.1, hs.2, hs1.1]
      have h3 : (1 : Nat) ≠ 2 * n := by omega
      by_cases hn1 : n = 1
      · subst hn1
        simp [insertRangeData, needsNew, addSubmap, insertInto, newSubmap, finishFront, hk, hd, finish]
      · have h4 : ¬ (n + 1 = 2 * n) := by omega
        simp [insertRangeData, needsNew, addSubmap, insertInto, newSubmap, finishFront, hk, hd, h3, h4]
    · -- general case: front is finished and gets erased
      have e3 : (q + 1 + 1) * n = q * n + 2 * n := by ring
      have e4 : (q + 1) * n = q * n + n := by ring
      have hq : specSubmap n rs q = ⟨(rs.drop (q * n)).take (2 * n), 2 * n, true⟩ := by
        have : ((rs.drop (q * n)).take (2 * n)).length = 2 * n := by
          rw [List.length_take, List.length_drop]; omega
        simp only [specSubmap, this]; simp
      have hs := specSubmap_append_open n rs r (q + 1) (by omega)
        (by have : (q + 1 + 2) * n = q * n + 3 * n := by ring
            omega)
      have hs1 := specSubmap_append_open n rs r (q + 2) (by
            have : (q + 2) * n = q * n + 2 * n := by ring
            omega)
        (by have : (q + 2 + 2) * n = q * n + 4 * n := by ring
            omega)
      have hd : rs.drop ((q + 2) * n) = [] := List.drop_eq_nil_of_le (by
        have : (q + 2) * n = q * n + 2 * n := by ring
        omega)
      have hsub1 : rs.length - (q + 1) * n = n := by omega
      have hsub2 : rs.length - (q + 2) * n = 0 := by
        have : (q + 2) * n = q * n + 2 * n := by ring
        omega
      rw [hd, hsub2] at hs1
      rw [hsub1] at hs
      have dr1 : (List.range (q + 1 + 1)).drop (q + 1 + 1 - 2) = [q, q + 1] := by
        rw [List.range_succ, List.range_succ]
        simp
      have dr2 : (List.range (q + 1 + 1 + 1)).drop (q + 1 + 1 + 1 - 2) = [q + 1, q + 2] := by
        rw [List.range_succ, List.range_succ]
        simp
      simp only [specState, hk, hk1, c0, c1, dr1, dr2, List.map_cons, List.map_nil]
      have her : (List.range (q + 1 + 1 + 1 - 2)).map (specSubmap n (rs ++ [r])) =
          (List.range (q + 1 + 1 - 2)).map (specSubmap n rs) ++ [specSubmap n rs q] := by
        rw [map_spec_erased]
        · have : q + 1 + 1 + 1 - 2 = q + 1 := by omega
          rw [this, List.range_succ]; simp
        · have : q + 1 + 1 + 1 - 2 + 1 = q + 1 + 1 := by omega
          rw [this]; omega
      rw [her, hq, hs.1, hs.2, hs1.1]
      by_cases hn1 : n = 1
      · subst hn1
        simp [insertRangeData, needsNew, addSubmap, insertInto, newSubmap, finishFront, finish]
      · have h4 : ¬ (n + 1 = 2 * n) := by omega
        simp [insertRangeData, needsNew, addSubmap, insertInto, newSubmap, finishFront, h4]
        omega
  · -- no new submap
    have c0 : specCount n (q * n + m) = q + 1 := by
      unfold specCount
      have : q * n + m + n - 1 = (m - 1) + (q + 1) * n := by
        have : (q + 1) * n = q * n + n := by ring
        omega
      rw [this, Nat.add_mul_div_right _ _ hn, Nat.div_eq_of_lt (by omega)]; omega
    rcases q with _ | q
    · simp only [Nat.zero_mul, Nat.zero_add] at hk hk1 c1 c0
      have hs := specSubmap_append_open n rs r 0 (by omega) (by omega)
      simp only [Nat.zero_mul, Nat.sub_zero, List.drop_zero] at hs
      simp only [specState, hk, hk1, c0, c1]
      simp only [Nat.reduceSub, List.range_zero, List.map_nil, List.range_one,
        List.drop_zero, List.map_cons]
      rw [hs.1, hs.2]
      have h1 : m ≠ n := by omega
      have h2 : ¬ (m + 1 = 2 * n) := by omega
      simp [insertRangeData, needsNew, insertInto, finishFront, hk, h1, h2]
    · have e4 : (q + 1) * n = q * n + n := by ring
      have hs := specSubmap_append_open n rs r q (by omega)
        (by have : (q + 2) * n = q * n + 2 * n := by ring
            omega)
      have hs1 := specSubmap_append_open n rs r (q + 1) (by omega)
        (by have : (q + 1 + 2) * n = q * n + 3 * n := by ring
            omega)
      have hsub1 : rs.length - q * n = n + m := by omega
      have hsub2 : rs.length - (q + 1) * n = m := by omega
      rw [hsub1] at hs
      rw [hsub2] at hs1
      have dr1 : (List.range (q + 1 + 1)).drop (q + 1 + 1 - 2) = [q, q + 1] := by
        rw [List.range_succ, List.range_succ]
        simp
      simp only [specState, hk, hk1, c0, c1, dr1, List.map_cons, List.map_nil]
      rw [map_spec_erased n rs r (q + 1 + 1 - 2) (by
        have : q + 1 + 1 - 2 + 1 = q + 1 := by omega
        rw [this]; omega)]
      rw [hs.1, hs.2, hs1.1, hs1.2]
      have h1 : m ≠ n := by omega
      have h3 : ¬ (m + 1 = 2 * n) := by omega
      by_cases h4 : n + m + 1 = 2 * n
      · simp [insertRangeData, needsNew, insertInto, finishFront, h1, h3, h4, finish]
      · simp [insertRangeData, needsNew, insertInto, finishFront, h1, h3, h4]

/-- **C22.** For every `n ≥ 1` and every sequence of range data, no check fails and the submaps ever
created, in order, are exactly the specified ones; all but the last two have left the active list. -/
theorem active_submaps_exact (n : Nat) (hn : 0 < n) (rs : List R) :
    ∃ st, insertAll n init rs = some st ∧
      st.erased ++ st.submaps = (List.range (specCount n rs.length)).map (specSubmap n rs) ∧
      st.submaps.length = min 2 (specCount n rs.length) := by
  have key : insertAll n init rs = some (specState n rs) := by
    induction rs using List.reverseRecOn with
    | nil => simp [insertAll, specState, specCount, init, Nat.div_eq_of_lt (show n - 1 < n by omega)]
    | append_singleton rs r ih =>
      rw [insertAll_append, ih]
      simp [insertAll, step_spec n hn]
  refine ⟨_, key, ?_, ?_⟩
  · simp only [specState, ← List.map_append]
    congr 1
    have : List.range (specCount n rs.length - 2) =
        (List.range (specCount n rs.length)).take (specCount n rs.length - 2) := by
      rw [List.take_range]; congr 1; omega
    rw [this, List.take_append_drop]
  · simp [specState]; omega

/-- **C22**, consequences: after at least one insertion there are one or two active submaps; every erased
submap is finished with exactly `2 * n` range data; an active submap is finished exactly when it has
`2 * n`; none has more. -/
theorem active_submaps_lifecycle (n : Nat) (hn : 0 < n) (rs : List R) (hrs : rs ≠ [])
    (st : State R) (h : insertAll n init rs = some st) :
    (st.submaps.length = 1 ∨ st.submaps.length = 2) ∧
    (∀ s ∈ st.erased, s.finished = true ∧ s.numRangeData = 2 * n) ∧
    (∀ s ∈ st.submaps, s.numRangeData = s.data.length ∧ 1 ≤ s.numRangeData ∧ s.numRangeData ≤ 2 * n ∧
      (s.finished = true ↔ s.numRangeData = 2 * n)) := by
  obtain ⟨st', h', hall, hlen⟩ := active_submaps_exact n hn rs
  rw [h] at h'; cases h'
  have hpos : 0 < rs.length := List.length_pos_iff.2 hrs
  have hc : 0 < specCount n rs.length := by
    unfold specCount; exact Nat.div_pos (by omega) hn
  have hcle : (specCount n rs.length - 1) * n < rs.length := by
    unfold specCount
    have := Nat.div_mul_le_self (rs.length + n - 1) n
    have e : ((rs.length + n - 1) / n - 1) * n = (rs.length + n - 1) / n * n - n := by
      rw [Nat.sub_mul, Nat.one_mul]
    omega
  refine ⟨by omega, ?_, ?_⟩
  · intro s hs
    obtain ⟨i, hi, rfl⟩ := List.mem_iff_getElem.1 hs
    have hil : i < specCount n rs.length - 2 := by
      have := congrArg List.length hall
      simp at this; omega
    have hget : st.erased[i] = specSubmap n rs i := by
      have h1 : (st.erased ++ st.submaps)[i]'(by simp; omega) = st.erased[i] :=
        List.getElem_append_left hi
      rw [← h1]; simp only [hall]; simp
    rw [hget]
    have : ((rs.drop (i * n)).take (2 * n)).length = 2 * n := by
      rw [List.length_take, List.length_drop]
      have : (i + 2) * n ≤ (specCount n rs.length - 1) * n := Nat.mul_le_mul_right _ (by omega)
      have e : (i + 2) * n = i * n + 2 * n := by ring
      omega
    simp [specSubmap, this]
  · intro s hs
    have hs' : s ∈ (List.range (specCount n rs.length)).map (specSubmap n rs) := by
      rw [← hall]; exact List.mem_append_right _ hs
    obtain ⟨i, hi, rfl⟩ := List.mem_map.1 hs'
    have hi := List.mem_range.1 hi
    have : i * n ≤ (specCount n rs.length - 1) * n := Nat.mul_le_mul_right _ (by omega)
    refine ⟨rfl, ?_, ?_, ?_⟩
    · simp only [specSubmap, List.length_take, List.length_drop]; omega
    · simp only [specSubmap, List.length_take, List.length_drop]; omega
    · simp only [specSubmap, decide_eq_true_eq]

/-- Non-vacuity: `n = 2`, five insertions. -/
example : insertAll 2 init [10, 11, 12, 13, 14] =
    some ⟨[⟨[10, 11, 12, 13], 4, true⟩], [⟨[12, 13, 14], 3, false⟩, ⟨[14], 1, false⟩]⟩ := by decide

/-- The precondition `n ≥ 1` (checked when options are read, submap_2d.cc / submap_3d.cc:193) is needed:
with `n = 0` the only submap grows for ever. -/
example : insertAll 0 init [1, 2, 3] = some ⟨[], [⟨[1, 2, 3], 3, false⟩]⟩ := by decide

end Verif.ActiveSubmaps
