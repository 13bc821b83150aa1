import Verif.Props.RotationalScanMatcher

/-!
# Histograms of point clouds: theorems
-/

namespace Verif.Rotational

open Verif.Rigid Verif.RealTime Verif.Spline Verif.MatchCost

/-! ### Buckets of angles -/

theorem down_some : ∀ (n : ℕ) (a : ℝ), a ≤ (n + 1) * Real.pi → ∃ r, down n a = some r ∧ r ≤ Real.pi ∧ (0 < a → 0 < r) ∧ (a ≤ 0 → r = a) ∧ ∃ k : ℤ, a = r + k * Real.pi
  | 0, a, h => by
    refine ⟨a, ?_, ?_, id, fun _ => rfl, 0, by simp⟩
    · unfold down
      rw [if_neg (by push_cast at h; linarith)]
    · push_cast at h
      linarith
  | n + 1, a, h => by
    unfold down
    split
    · rename_i hp
      obtain ⟨r, h1, h2, h3, _, k, h4⟩ := down_some n (a - Real.pi) (by push_cast at h; linarith)
      refine ⟨r, h1, h2, fun _ => h3 (by linarith), fun ha => ?_, k + 1, by push_cast; linarith⟩
      have := Real.pi_pos
      linarith
    · rename_i hp
      exact ⟨a, rfl, not_lt.1 hp, id, fun _ => rfl, 0, by simp⟩

theorem up_some : ∀ (n : ℕ) (a : ℝ), -(n * Real.pi) ≤ a → ∃ r, up n a = some r ∧ 0 ≤ r ∧ (a < 0 → r < Real.pi) ∧ (0 ≤ a → r = a) ∧ ∃ k : ℤ, a = r + k * Real.pi
  | 0, a, h => by
    have h : 0 ≤ a := by simpa using h
    refine ⟨a, ?_, h, fun h' => absurd h' (not_lt.2 h), fun _ => rfl, 0, by simp⟩
    unfold up
    rw [if_neg (not_lt.2 h)]
  | n + 1, a, h => by
    unfold up
    split
    · rename_i hn
      obtain ⟨r, h1, h2, h3, h5, k, h4⟩ := up_some n (a + Real.pi) (by push_cast at h; linarith)
      refine ⟨r, h1, h2, fun _ => ?_, fun ha => absurd hn (not_lt.2 ha), k - 1, by push_cast; linarith⟩
      by_cases hc : a + Real.pi < 0
      · exact h3 hc
      · rw [h5 (not_lt.1 hc)]
        linarith
    · rename_i hn
      exact ⟨a, rfl, not_lt.1 hn, fun h' => absurd h' hn, fun _ => rfl, 0, by simp⟩

/-- What the loops make of an angle: the number in `[0, π]` that differs from it by half turns, where a positive angle does not become 0 and
another one does not become `π`. -/
def Reduced (a r : ℝ) : Prop := 0 ≤ r ∧ r ≤ Real.pi ∧ (0 < a → 0 < r) ∧ (a ≤ 0 → r < Real.pi) ∧ ∃ k : ℤ, a = r + k * Real.pi

theorem reduce_some (a : ℝ) : ∃ b r, down (⌈|a| / Real.pi⌉).toNat a = some b ∧ up (⌈|a| / Real.pi⌉).toNat b = some r ∧ Reduced a r := by
  have hpi := Real.pi_pos
  have hn : |a| ≤ ((⌈|a| / Real.pi⌉).toNat : ℝ) * Real.pi := by
    have h0 : 0 ≤ ⌈|a| / Real.pi⌉ := Int.ceil_nonneg (div_nonneg (abs_nonneg a) hpi.le)
    have h1 : (((⌈|a| / Real.pi⌉).toNat : ℤ) : ℝ) = (⌈|a| / Real.pi⌉ : ℝ) := by rw [Int.toNat_of_nonneg h0]
    have h2 := Int.le_ceil (|a| / Real.pi)
    have h3 : (((⌈|a| / Real.pi⌉).toNat : ℕ) : ℝ) = (⌈|a| / Real.pi⌉ : ℝ) := by rw [← h1]; push_cast; rfl
    rw [h3]
    rwa [div_le_iff₀ hpi] at h2
  generalize (⌈|a| / Real.pi⌉).toNat = n at *
  have ha := abs_le.1 hn
  obtain ⟨b, h1, h2, h3, h4, k, h5⟩ := down_some n a (by nlinarith [ha.2])
  by_cases h0 : 0 < a
  · obtain ⟨r, g1, g2, g3, g4, k', g5⟩ := up_some n b (by have := h3 h0; have := abs_nonneg a; linarith)
    refine ⟨b, r, h1, g1, g2, ?_, ?_, fun h => absurd h0 (not_lt.2 h), k, ?_⟩
    · rw [g4 (h3 h0).le]; exact h2
    · intro; rw [g4 (h3 h0).le]; exact h3 h0
    · rw [g4 (h3 h0).le]; exact h5
  · have hb := h4 (not_lt.1 h0)
    obtain ⟨r, g1, g2, g3, g4, k', g5⟩ := up_some n b (by rw [hb]; exact ha.1)
    have hlt : r < Real.pi := by
      by_cases hb0 : b < 0
      · exact g3 hb0
      · rw [g4 (not_lt.1 hb0), hb]
        linarith
    exact ⟨b, r, h1, g1, g2, hlt.le, fun h => absurd h h0, fun _ => hlt, k', by rw [← hb]; exact g5⟩

/-- The bucket of an angle as the intervals of the width `π / n` number them, the end of the last interval included. -/
noncomputable def bucket (n : ℕ) (a : ℝ) : ℕ :=
  if 0 < a ∧ Int.fract (a / Real.pi) = 0 then n - 1 else (⌊n * Int.fract (a / Real.pi)⌋).toNat

theorem bucket_lt {n : ℕ} (hn : 0 < n) (a : ℝ) : bucket n a < n := by
  unfold bucket
  split
  · omega
  · have h0 := Int.fract_nonneg (a / Real.pi)
    have h1 := Int.fract_lt_one (a / Real.pi)
    have hn' : (0 : ℝ) < n := by exact_mod_cast hn
    have h2 : 0 ≤ ⌊(n : ℝ) * Int.fract (a / Real.pi)⌋ := Int.floor_nonneg.2 (mul_nonneg hn'.le h0)
    have h3 : ⌊(n : ℝ) * Int.fract (a / Real.pi)⌋ < n := Int.floor_lt.2 (by push_cast; nlinarith)
    omega

theorem reduced_bucket {n : ℕ} (hn : 0 < n) {a r : ℝ} (h : Reduced a r) :
    clampInt (RealTime.round (n * (r / Real.pi) - 1 / 2)) 0 (n - 1) = bucket n a := by
  have hpi := Real.pi_pos
  have hn' : (0 : ℝ) < n := by exact_mod_cast hn
  obtain ⟨h0, h1, h2, h3, k, hk⟩ := h
  have hd : a / Real.pi = r / Real.pi + k := by rw [hk]; field_simp
  have hf : Int.fract (a / Real.pi) = Int.fract (r / Real.pi) := by rw [hd, Int.fract_add_intCast]
  have ht0 : 0 ≤ r / Real.pi := div_nonneg h0 hpi.le
  have ht1 : r / Real.pi ≤ 1 := (div_le_one hpi).2 h1
  by_cases hr : r = Real.pi
  · have ha : 0 < a := by
      by_contra hc
      have := h3 (not_lt.1 hc)
      linarith
    have : bucket n a = n - 1 := by
      unfold bucket
      rw [if_pos ⟨ha, by rw [hf, hr, div_self hpi.ne', Int.fract_one]⟩]
    rw [this, hr, div_self hpi.ne', mul_one]
    have hb : n - 1 ≤ RealTime.round ((n : ℝ) - 1 / 2) ∧ RealTime.round ((n : ℝ) - 1 / 2) ≤ n := by
      have := round_half (n : ℝ)
      rw [Int.floor_natCast] at this
      omega
    unfold clampInt
    split
    · omega
    · split <;> omega
  · have hlt : r / Real.pi < 1 := (div_lt_one hpi).2 (lt_of_le_of_ne h1 hr)
    have hfr : Int.fract (r / Real.pi) = r / Real.pi := Int.fract_eq_self.2 ⟨ht0, hlt⟩
    have : bucket n a = (⌊n * (r / Real.pi)⌋).toNat := by
      unfold bucket
      rw [hf, hfr, if_neg]
      rintro ⟨ha, hz⟩
      have := div_pos (h2 ha) hpi
      linarith
    rw [this]
    have f0 : 0 ≤ ⌊(n : ℝ) * (r / Real.pi)⌋ := Int.floor_nonneg.2 (mul_nonneg hn'.le ht0)
    have f1 : ⌊(n : ℝ) * (r / Real.pi)⌋ < n := Int.floor_lt.2 (by push_cast; nlinarith)
    generalize hx : (n : ℝ) * (r / Real.pi) = x at *
    have hx0 : 0 ≤ x := by rw [← hx]; exact mul_nonneg hn'.le ht0
    unfold clampInt
    rcases round_half x with e | ⟨e1, e⟩
    · rw [e, if_neg (by omega), if_neg (by omega)]
      omega
    · have : ¬ (0 ≤ x - 1 / 2) := by
        intro hge
        have : RealTime.round (x - 1 / 2) = ⌊x⌋ := by
          unfold RealTime.round
          rw [if_pos hge]
          congr 1
          ring
        omega
      have : ⌊x⌋ = 0 := Int.floor_eq_zero_iff.2 ⟨hx0, by linarith⟩
      rw [e, if_neg (by omega), if_pos (by omega)]
      omega

/-- A value is added to the bucket of its angle and to no other. -/
theorem addValue_eq {h : List ℝ} (hn : h ≠ []) (a v : ℝ) : addValue a v h = some (h.modify (bucket h.length a) (· + v)) := by
  have hpos : 0 < h.length := List.length_pos_iff.2 hn
  obtain ⟨b, r, h1, h2, h3⟩ := reduce_some a
  unfold addValue
  simp only [Option.bind_eq_bind]
  rw [h1, Option.bind_some, h2, Option.bind_some, reduced_bucket hpos h3, if_neg (by omega), Int.toNat_natCast]
  have hlt := bucket_lt hpos a
  rw [List.getElem?_eq_getElem hlt, Option.bind_some, List.modify_eq_set_getElem?, List.getElem?_eq_getElem hlt]
  rfl

/-- There is no bucket to add to without buckets. -/
theorem addValue_nil (a v : ℝ) : addValue a v [] = none := by
  obtain ⟨b, r, h1, h2, _⟩ := reduce_some a
  unfold addValue
  simp only [Option.bind_eq_bind]
  rw [h1, Option.bind_some, h2, Option.bind_some]
  split
  · rfl
  · simp

/-- Opposite directions that are not horizontal, more precisely angles that differ by half turns and are not multiples of them, share their bucket. -/
theorem bucket_half_turns (n : ℕ) (a : ℝ) (k : ℤ) (h : Int.fract (a / Real.pi) ≠ 0) : bucket n (a + k * Real.pi) = bucket n a := by
  have hd : (a + k * Real.pi) / Real.pi = a / Real.pi + k := by
    have := Real.pi_ne_zero
    field_simp
  unfold bucket
  rw [hd, Int.fract_add_intCast, if_neg (fun hc => h hc.2), if_neg (fun hc => h hc.2)]

/-- Of the two horizontal directions one has the first bucket and the other the last one. -/
theorem bucket_horizontal (n : ℕ) : bucket n (atan2 ⟨1, 0⟩) = 0 ∧ bucket n (atan2 ⟨-1, 0⟩) = n - 1 := by
  have h1 : atan2 ⟨1, 0⟩ = 0 := Complex.arg_eq_zero_iff.2 ⟨by norm_num, rfl⟩
  have h2 : atan2 ⟨-1, 0⟩ = Real.pi := Complex.arg_eq_pi_iff.2 ⟨by norm_num, rfl⟩
  rw [h1, h2]
  constructor
  · unfold bucket
    rw [if_neg (by simp)]
    simp
  · unfold bucket
    rw [if_pos ⟨Real.pi_pos, by rw [div_self Real.pi_ne_zero, Int.fract_one]⟩]

/-! ### The pairs that count -/

/-- Adding weighted directions to a histogram: every bucket gets the weights of the directions in it. -/
noncomputable def added (h : List ℝ) (xs : List (V2 × ℝ)) : List ℝ :=
  (List.range h.length).map fun (i : Nat) => (h[i]?).getD 0 + (xs.map fun x => if bucket h.length (atan2 x.1) = i then x.2 else 0).sum

/-- The histogram of weighted directions. -/
noncomputable def votes (n : ℕ) (xs : List (V2 × ℝ)) : List ℝ :=
  (List.range n).map fun (i : Nat) => (xs.map fun x => if bucket n (atan2 x.1) = i then x.2 else 0).sum

/-- The mean of points. -/
noncomputable def mean (s : List V3) : V3 := ⟨(s.map V3.x).sum / s.length, (s.map V3.y).sum / s.length, (s.map V3.z).sum / s.length⟩

/-- The directions and weights which a list of points around `c` contributes, seen from an anchor that moves on to the first point too far from it. -/
noncomputable def contributions (c : V3) : V3 → List V3 → List (V2 × ℝ)
  | _, [] => []
  | last, p :: ps =>
    if norm2 (delta p last) < minDistance ∨ norm2 (delta p c) < minDistance then contributions c last ps
    else if maxDistance < norm2 (delta p last) then contributions c p ps
    else (delta p last, weight (delta p last) (delta p c)) :: contributions c last ps

/-- The directions and weights which a sorted slice contributes. -/
noncomputable def sliceVotes : List V3 → List (V2 × ℝ)
  | [] => []
  | first :: rest => contributions (mean (first :: rest)) first (first :: rest)

theorem added_length (h : List ℝ) (xs : List (V2 × ℝ)) : (added h xs).length = h.length := by simp [added]

theorem added_nil (h : List ℝ) : added h [] = h := by
  apply List.ext_getElem
  · simp [added]
  · intro i h1 h2
    simp [added, h2]

theorem added_cons (h : List ℝ) (x : V2 × ℝ) (xs : List (V2 × ℝ)) : added (h.modify (bucket h.length (atan2 x.1)) (· + x.2)) xs = added h (x :: xs) := by
  unfold added
  rw [List.length_modify]
  apply List.map_congr_left
  intro i hi
  have hi : i < h.length := by simpa using hi
  rw [List.getElem?_modify, List.getElem?_eq_getElem hi, List.map_cons, List.sum_cons]
  simp only [Option.map_eq_map, Option.map_some, Option.getD_some]
  split <;> ring

theorem added_append (h : List ℝ) (xs ys : List (V2 × ℝ)) : added (added h xs) ys = added h (xs ++ ys) := by
  induction xs generalizing h with
  | nil => rw [added_nil]; rfl
  | cons x xs ih => rw [List.cons_append, ← added_cons, ih, added_cons]

theorem modify_ne {h : List ℝ} (hn : h ≠ []) (i : ℕ) (f : ℝ → ℝ) : h.modify i f ≠ [] := by
  intro hc
  have := congrArg List.length hc
  rw [List.length_modify] at this
  exact hn (List.length_eq_zero_iff.1 this)

theorem added_ne {h : List ℝ} (hn : h ≠ []) (xs : List (V2 × ℝ)) : added h xs ≠ [] := by
  intro hc
  have := congrArg List.length hc
  rw [added_length] at this
  exact hn (List.length_eq_zero_iff.1 this)

theorem pairs_eq (c : V3) : ∀ (ps : List V3) (last : V3) (h : List ℝ), h ≠ [] → pairs c last ps h = some (added h (contributions c last ps))
  | [], last, h, hn => by unfold pairs contributions; rw [added_nil]
  | p :: ps, last, h, hn => by
    unfold pairs contributions
    split
    · exact pairs_eq c ps last h hn
    · split
      · exact pairs_eq c ps p h hn
      · rw [addValue_eq hn, ← added_cons]
        exact pairs_eq c ps last _ (modify_ne hn _ _)

theorem centroid_eq {s : List V3} (hs : s ≠ []) : centroid s = some (mean s) := by
  unfold centroid mean
  rw [if_neg (by simpa using hs)]

theorem addSlice_eq {h : List ℝ} (hn : h ≠ []) (s : List V3) : addSlice s h = some (added h (sliceVotes s)) := by
  cases s with
  | nil => unfold addSlice sliceVotes; rw [added_nil]
  | cons a s =>
    unfold addSlice sliceVotes
    simp only [Option.bind_eq_bind]
    rw [centroid_eq (by simp), Option.bind_some, pairs_eq _ _ _ _ hn]

/-- Every contribution is the direction between two points of the slice, neither close together nor far apart, with a weight in the unit interval. -/
theorem contributions_spec (c : V3) : ∀ (ps : List V3) (last : V3), ∀ x ∈ contributions c last ps, minDistance ≤ norm2 x.1 ∧ norm2 x.1 ≤ maxDistance ∧ 0 ≤ x.2 ∧ x.2 ≤ 1 ∧
    ∃ p ∈ ps, ∃ q ∈ last :: ps, x.1 = delta p q ∧ x.2 = weight (delta p q) (delta p c) ∧ minDistance ≤ norm2 (delta p c)
  | [], last => by simp [contributions]
  | p :: ps, last => by
    intro x hx
    unfold contributions at hx
    split at hx
    · obtain ⟨h1, h2, h3, h4, a, ha, b, hb, h5⟩ := contributions_spec c ps last x hx
      refine ⟨h1, h2, h3, h4, a, List.mem_cons_of_mem _ ha, b, ?_, h5⟩
      rcases List.mem_cons.1 hb with rfl | hb
      · simp
      · simp [hb]
    · split at hx
      · obtain ⟨h1, h2, h3, h4, a, ha, b, hb, h5⟩ := contributions_spec c ps p x hx
        exact ⟨h1, h2, h3, h4, a, List.mem_cons_of_mem _ ha, b, List.mem_cons_of_mem _ hb, h5⟩
      · rename_i g1 g2
        push Not at g1
        rcases List.mem_cons.1 hx with rfl | hx
        · refine ⟨g1.1, not_lt.1 g2, le_max_left _ _, max_le (by norm_num) (by linarith [abs_nonneg ((delta p last).x / norm2 (delta p last) * ((delta p c).x / norm2 (delta p c)) + (delta p last).y / norm2 (delta p last) * ((delta p c).y / norm2 (delta p c)))]), p, by simp, last, by simp, rfl, rfl, g1.2⟩
        · obtain ⟨h1, h2, h3, h4, a, ha, b, hb, h5⟩ := contributions_spec c ps last x hx
          refine ⟨h1, h2, h3, h4, a, List.mem_cons_of_mem _ ha, b, ?_, h5⟩
          rcases List.mem_cons.1 hb with rfl | hb
          · simp
          · simp [hb]

theorem contributions_length (c : V3) : ∀ (ps : List V3) (last : V3), (contributions c last ps).length ≤ ps.length
  | [], last => by simp [contributions]
  | p :: ps, last => by
    unfold contributions
    split
    · exact (contributions_length c ps last).trans (by simp)
    · split
      · exact (contributions_length c ps p).trans (by simp)
      · simpa using contributions_length c ps last

theorem norm2_zero : norm2 ⟨0, 0⟩ = 0 := by simp [norm2]

/-- A slice contributes less directions than it has points. -/
theorem sliceVotes_length (s : List V3) : (sliceVotes s).length ≤ s.length - 1 := by
  cases s with
  | nil => simp [sliceVotes]
  | cons a s =>
    unfold sliceVotes contributions
    have : norm2 (delta a a) < minDistance := by
      unfold delta minDistance
      rw [sub_self, sub_self, norm2_zero]
      norm_num
    dsimp only
    rw [if_pos (Or.inl this)]
    simpa using contributions_length _ s a

theorem sliceVotes_spec (s : List V3) : ∀ x ∈ sliceVotes s, minDistance ≤ norm2 x.1 ∧ norm2 x.1 ≤ maxDistance ∧ 0 ≤ x.2 ∧ x.2 ≤ 1 ∧
    ∃ p ∈ s, ∃ q ∈ s, x.1 = delta p q ∧ x.2 = weight (delta p q) (delta p (mean s)) ∧ minDistance ≤ norm2 (delta p (mean s)) := by
  cases s with
  | nil => simp [sliceVotes]
  | cons a s =>
    intro x hx
    obtain ⟨h1, h2, h3, h4, p, hp, q, hq, h5⟩ := contributions_spec _ _ _ x hx
    refine ⟨h1, h2, h3, h4, p, hp, q, ?_, h5⟩
    rcases List.mem_cons.1 hq with rfl | hq
    · simp
    · exact hq

/-- The weight is one less the absolute cosine of the angle between the direction and the ray from the centroid. -/
theorem weight_eq {d e : V2} (hd : d ≠ ⟨0, 0⟩) (he : e ≠ ⟨0, 0⟩) : weight d e = 1 - |d.x * e.x + d.y * e.y| / (norm2 d * norm2 e) := by
  have pos : ∀ v : V2, v ≠ ⟨0, 0⟩ → 0 < norm2 v := by
    intro v hv
    rw [norm2, Real.sqrt_pos]
    by_contra hc
    have h1 : v.x = 0 := by nlinarith [sq_nonneg v.x, sq_nonneg v.y]
    have h2 : v.y = 0 := by nlinarith [sq_nonneg v.x, sq_nonneg v.y]
    exact hv (by cases v; simp_all)
  have h1 := pos d hd
  have h2 := pos e he
  have e1 : d.x / norm2 d * (e.x / norm2 e) + d.y / norm2 d * (e.y / norm2 e) = (d.x * e.x + d.y * e.y) / (norm2 d * norm2 e) := by field_simp
  unfold weight
  rw [e1, abs_div, abs_of_pos (mul_pos h1 h2)]
  apply max_eq_right
  have hle : |d.x * e.x + d.y * e.y| ≤ norm2 d * norm2 e := by
    apply abs_le_of_sq_le_sq _ (mul_nonneg h1.le h2.le)
    rw [mul_pow, norm2_sq, norm2_sq]
    nlinarith [sq_nonneg (d.x * e.y - d.y * e.x)]
  have := (div_le_one (mul_pos h1 h2)).2 hle
  linarith

/-! ### Slices -/

theorem push_spec {α : Type} {f : Int → List α} (k : Int) (p : α) : ∀ {m : List (Int × List α)}, m.Pairwise (fun a b => a.1 < b.1) → (∀ x ∈ m, x.2 = f x.1 ∧ x.2 ≠ []) →
    (f k ≠ [] → k ∈ m.map Prod.fst) → (push k p m).Pairwise (fun a b => a.1 < b.1) ∧
      (∀ j, j ∈ (push k p m).map Prod.fst ↔ j = k ∨ j ∈ m.map Prod.fst) ∧ ∀ x ∈ push k p m, x.2 = Function.update f k (f k ++ [p]) x.1 ∧ x.2 ≠ []
  | [], _, _, h => by
    have hf : f k = [] := by by_contra hc; simpa using h hc
    simp [push, hf]
  | (k', s) :: m, hp, hm, h => by
    have hk := (List.pairwise_cons.1 hp).1
    unfold push
    split
    · rename_i hlt
      have hf : f k = [] := by
        by_contra hc
        have := h hc
        rw [List.map_cons, List.mem_cons] at this
        rcases this with rfl | hin
        · exact lt_irrefl _ hlt
        · obtain ⟨x, hx, rfl⟩ := List.mem_map.1 hin
          have := hk x hx
          dsimp only at this hlt
          omega
      refine ⟨List.pairwise_cons.2 ⟨?_, hp⟩, fun j => by simp, ?_⟩
      · intro x hx
        rcases List.mem_cons.1 hx with rfl | hx
        · exact hlt
        · have := hk x hx
          dsimp only at this ⊢
          omega
      · intro x hx
        rcases List.mem_cons.1 hx with rfl | hx
        · simp [hf]
        · have hne : x.1 ≠ k := by
            rcases List.mem_cons.1 hx with rfl | hx
            · dsimp only; omega
            · have := hk x hx
              dsimp only at this
              omega
          rw [Function.update_of_ne hne]
          exact hm x hx
    · split
      · rename_i _ he
        subst he
        refine ⟨List.pairwise_cons.2 ⟨hk, (List.pairwise_cons.1 hp).2⟩, fun j => by simp, ?_⟩
        intro x hx
        rcases List.mem_cons.1 hx with rfl | hx
        · have := (hm (k, s) (by simp)).1
          dsimp only at this
          simp [this]
        · have hne : x.1 ≠ k := by
            have := hk x hx
            dsimp only at this
            omega
          rw [Function.update_of_ne hne]
          exact hm x (List.mem_cons_of_mem _ hx)
      · rename_i hle hne
        obtain ⟨h1, h2, h3⟩ := push_spec k p (List.pairwise_cons.1 hp).2 (fun x hx => hm x (List.mem_cons_of_mem _ hx)) (fun hf => by
          rcases List.mem_cons.1 (h hf) with he | hin
          · exact absurd he hne
          · exact hin)
        refine ⟨List.pairwise_cons.2 ⟨?_, h1⟩, ?_, ?_⟩
        · intro x hx
          rcases (h2 x.1).1 (List.mem_map_of_mem hx) with he | hin
          · dsimp only; omega
          · obtain ⟨y, hy, he⟩ := List.mem_map.1 hin
            have := hk y hy
            dsimp only at this ⊢
            omega
        · intro j
          rw [List.map_cons, List.mem_cons, h2, List.map_cons, List.mem_cons]
          tauto
        · intro x hx
          rcases List.mem_cons.1 hx with rfl | hx
          · rw [Function.update_of_ne (Ne.symm hne)]
            exact hm _ (by simp)
          · exact h3 x hx

/-- The points of a slice in their order. -/
noncomputable def slicePoints (points : List V3) (k : Int) : List V3 := points.filter fun p => decide (sliceOf p = k)

theorem slicePoints_append (ps : List V3) (p : V3) :
    slicePoints (ps ++ [p]) = Function.update (slicePoints ps) (sliceOf p) (slicePoints ps (sliceOf p) ++ [p]) := by
  funext k
  unfold slicePoints
  rw [List.filter_append]
  by_cases h : k = sliceOf p
  · subst h
    rw [Function.update_self]
    simp
  · rw [Function.update_of_ne h]
    simp [Ne.symm h]

theorem slices_step (points : List V3) : (slices points).Pairwise (fun a b => a.1 < b.1) ∧ (∀ k, k ∈ (slices points).map Prod.fst ↔ ∃ p ∈ points, sliceOf p = k) ∧
    ∀ x ∈ slices points, x.2 = slicePoints points x.1 ∧ x.2 ≠ [] := by
  induction points using List.reverseRecOn with
  | nil => simp [slices]
  | append_singleton ps p ih =>
    obtain ⟨h1, h2, h3⟩ := ih
    have e : slices (ps ++ [p]) = push (sliceOf p) p (slices ps) := by unfold slices; rw [List.foldl_append]; rfl
    obtain ⟨g1, g2, g3⟩ := push_spec (f := slicePoints ps) (sliceOf p) p h1 h3 (fun hf => (h2 _).2 (by
      obtain ⟨q, hq⟩ := List.exists_mem_of_ne_nil _ hf
      unfold slicePoints at hq
      rw [List.mem_filter] at hq
      exact ⟨q, hq.1, by simpa using hq.2⟩))
    rw [e]
    refine ⟨g1, ?_, ?_⟩
    · intro k
      rw [g2, h2]
      constructor
      · rintro (rfl | ⟨q, hq, rfl⟩)
        · exact ⟨p, by simp, rfl⟩
        · exact ⟨q, by simp [hq], rfl⟩
      · rintro ⟨q, hq, rfl⟩
        rcases List.mem_append.1 hq with hq | hq
        · exact Or.inr ⟨q, hq, rfl⟩
        · rw [List.mem_singleton] at hq
          subst hq
          exact Or.inl rfl
    · rw [slicePoints_append]
      exact g3

/-- The numbers of the slices with points, in ascending order. -/
noncomputable def sliceKeys (points : List V3) : List Int := (slices points).map Prod.fst

theorem sliceKeys_sorted (points : List V3) : (sliceKeys points).Pairwise (· < ·) := List.pairwise_map.2 (slices_step points).1

theorem mem_sliceKeys (points : List V3) (k : Int) : k ∈ sliceKeys points ↔ ∃ p ∈ points, sliceOf p = k := (slices_step points).2.1 k

/-- The slices are the points of the same height, by ascending height. -/
theorem slices_eq (points : List V3) : slices points = (sliceKeys points).map fun k => (k, slicePoints points k) := by
  unfold sliceKeys
  rw [List.map_map]
  conv_lhs => rw [← List.map_id (slices points)]
  apply List.map_congr_left
  intro x hx
  have := ((slices_step points).2.2 x hx).1
  simp only [id, Function.comp]
  rw [← this]

/-- What the sort has to be. -/
def IsSort (sort : List (ℝ × V3) → List (ℝ × V3)) : Prop := ∀ l, (sort l).Perm l ∧ (sort l).Pairwise (fun a b => a.1 ≤ b.1)

/-- A slice sorted by the angle around its mean. -/
noncomputable def sorted (sort : List (ℝ × V3) → List (ℝ × V3)) (s : List V3) : List V3 := (sort (byAngle (mean s) s)).map Prod.snd

/-- All that a point cloud contributes. -/
noncomputable def allVotes (sort : List (ℝ × V3) → List (ℝ × V3)) (points : List V3) : List (V2 × ℝ) :=
  (sliceKeys points).flatMap fun k => sliceVotes (sorted sort (slicePoints points k))

theorem slicePoints_ne {points : List V3} {k : Int} (hk : k ∈ sliceKeys points) : slicePoints points k ≠ [] := by
  obtain ⟨p, hp, he⟩ := (mem_sliceKeys points k).1 hk
  intro hc
  have : p ∈ slicePoints points k := by unfold slicePoints; rw [List.mem_filter]; simp [hp, he]
  rw [hc] at this
  simp at this

theorem fold_slices (sort : List (ℝ × V3) → List (ℝ × V3)) (points : List V3) : ∀ (ks : List Int) (h : List ℝ), h ≠ [] → (∀ k ∈ ks, slicePoints points k ≠ []) →
    (ks.map fun k => (k, slicePoints points k)).foldlM (fun h s => do let sorted ← sortSlice sort s.2; addSlice sorted h) h =
      some (added h (ks.flatMap fun k => sliceVotes (sorted sort (slicePoints points k))))
  | [], h, _, _ => by rw [List.map_nil, List.flatMap_nil, added_nil]; rfl
  | k :: ks, h, hn, hk => by
    rw [List.map_cons, List.foldlM_cons]
    have e : sortSlice sort (slicePoints points k) = some (sorted sort (slicePoints points k)) := by
      unfold sortSlice
      rw [centroid_eq (hk k (by simp))]
      rfl
    simp only [Option.bind_eq_bind]
    rw [e, Option.bind_some, addSlice_eq hn, Option.bind_some, List.flatMap_cons, ← added_append]
    exact fold_slices sort points ks _ (added_ne hn _) fun k' hk' => hk k' (List.mem_cons_of_mem _ hk')

theorem added_zero (n : ℕ) (xs : List (V2 × ℝ)) : added (List.replicate n 0) xs = votes n xs := by
  unfold added votes
  rw [List.length_replicate]
  apply List.map_congr_left
  intro i hi
  have hi : i < n := by simpa using hi
  rw [List.getElem?_replicate, if_pos hi, Option.getD_some, zero_add]

/-- The histogram of a point cloud consists of the weights of the directions that its sorted slices contribute. -/
theorem computeHistogram_eq (sort : List (ℝ × V3) → List (ℝ × V3)) (points : List V3) {n : ℕ} (hn : 0 < n) :
    computeHistogram sort points n = some (votes n (allVotes sort points)) := by
  unfold computeHistogram
  rw [slices_eq, fold_slices sort points _ _ (by simp; omega) (fun k hk => slicePoints_ne hk), added_zero]
  rfl

theorem votes_sum {n : ℕ} (hn : 0 < n) (xs : List (V2 × ℝ)) : (votes n xs).sum = (xs.map Prod.snd).sum := by
  unfold votes
  rw [sum_range_list]
  induction xs with
  | nil => simp
  | cons x xs ih =>
    simp only [List.map_cons, List.sum_cons]
    rw [Finset.sum_add_distrib, ih, Finset.sum_ite_eq, if_pos (Finset.mem_range.2 (bucket_lt hn _))]

theorem sorted_length {sort : List (ℝ × V3) → List (ℝ × V3)} (hs : IsSort sort) (s : List V3) : (sorted sort s).length ≤ s.length := by
  unfold sorted
  rw [List.length_map, (hs _).1.length_eq, byAngle, List.length_map]
  exact List.length_filter_le _ _

theorem sum_indicator_le (a : Int) : ∀ ks : List Int, ks.Nodup → (ks.map fun k => if a = k then 1 else 0).sum ≤ 1 ∧ (a ∉ ks → (ks.map fun k => if a = k then 1 else 0).sum = 0)
  | [], _ => by simp
  | k :: ks, h => by
    obtain ⟨h1, h2⟩ := List.nodup_cons.1 h
    obtain ⟨i1, i2⟩ := sum_indicator_le a ks h2
    rw [List.map_cons, List.sum_cons]
    by_cases e : a = k
    · subst e
      rw [if_pos rfl, i2 h1]
      simp
    · rw [if_neg e]
      refine ⟨by omega, fun hn => ?_⟩
      rw [i2 fun hc => hn (List.mem_cons_of_mem _ hc)]

theorem slicePoints_total {ks : List Int} (hd : ks.Nodup) : ∀ points : List V3, (ks.map fun k => (slicePoints points k).length).sum ≤ points.length
  | [] => by
    have : (ks.map fun k => (slicePoints [] k).length) = ks.map fun _ => 0 := List.map_congr_left fun k _ => by simp [slicePoints]
    rw [this]
    simp
  | p :: ps => by
    have ih := slicePoints_total hd ps
    have e : (ks.map fun k => (slicePoints (p :: ps) k).length) = ks.map fun k => (slicePoints ps k).length + if sliceOf p = k then 1 else 0 := by
      apply List.map_congr_left
      intro k _
      unfold slicePoints
      rw [List.filter_cons]
      by_cases h : sliceOf p = k <;> simp [h]
    rw [e, List.sum_map_add, List.length_cons]
    have := (sum_indicator_le (sliceOf p) ks hd).1
    omega

theorem allVotes_length {sort : List (ℝ × V3) → List (ℝ × V3)} (hs : IsSort sort) (points : List V3) : (allVotes sort points).length ≤ points.length := by
  unfold allVotes
  rw [List.length_flatMap]
  refine (List.sum_le_sum fun k _ => ?_).trans (slicePoints_total ((sliceKeys_sorted points).imp fun h => ne_of_lt h) points)
  have h1 := sliceVotes_length (sorted sort (slicePoints points k))
  have h2 := sorted_length hs (slicePoints points k)
  omega

theorem allVotes_spec (sort : List (ℝ × V3) → List (ℝ × V3)) (points : List V3) : ∀ x ∈ allVotes sort points, 0 ≤ x.2 ∧ x.2 ≤ 1 := by
  intro x hx
  unfold allVotes at hx
  rw [List.mem_flatMap] at hx
  obtain ⟨k, _, hx⟩ := hx
  obtain ⟨_, _, h3, h4, _⟩ := sliceVotes_spec _ x hx
  exact ⟨h3, h4⟩

/-- The histogram of a point cloud has the wanted number of buckets, none negative, and their sum is at most the number of points. -/
theorem computeHistogram_spec {sort : List (ℝ × V3) → List (ℝ × V3)} (hs : IsSort sort) (points : List V3) {n : ℕ} (hn : 0 < n) :
    ∃ h, computeHistogram sort points n = some h ∧ h.length = n ∧ (∀ x ∈ h, 0 ≤ x) ∧ h.sum ≤ points.length := by
  refine ⟨_, computeHistogram_eq sort points hn, by simp [votes], ?_, ?_⟩
  · intro x hx
    unfold votes at hx
    obtain ⟨i, _, rfl⟩ := List.mem_map.1 hx
    apply List.sum_nonneg
    intro y hy
    obtain ⟨z, hz, rfl⟩ := List.mem_map.1 hy
    beta_reduce
    split
    · exact (allVotes_spec sort points z hz).1
    · exact le_refl _
  · rw [votes_sum hn]
    have h1 : ((allVotes sort points).map Prod.snd).sum ≤ ((allVotes sort points).map fun _ => (1 : ℝ)).sum :=
      List.sum_le_sum fun x hx => (allVotes_spec sort points x hx).2
    have h2 : ((allVotes sort points).length : ℝ) ≤ points.length := by exact_mod_cast allVotes_length hs points
    simp only [List.map_const', List.sum_replicate, nsmul_eq_mul, mul_one] at h1
    linarith

theorem pairs_nil (c : V3) : ∀ (ps : List V3) (last : V3), pairs c last ps [] = if contributions c last ps = [] then some [] else none
  | [], last => rfl
  | p :: ps, last => by
    unfold pairs contributions
    split
    · exact pairs_nil c ps last
    · split
      · exact pairs_nil c ps p
      · rw [addValue_nil, if_neg (by simp)]
        rfl

theorem addSlice_nil (s : List V3) : addSlice s [] = if sliceVotes s = [] then some [] else none := by
  cases s with
  | nil => rfl
  | cons a s =>
    unfold addSlice sliceVotes
    simp only [Option.bind_eq_bind]
    rw [centroid_eq (by simp), Option.bind_some]
    exact pairs_nil _ _ _

theorem fold_slices_nil (sort : List (ℝ × V3) → List (ℝ × V3)) (points : List V3) : ∀ ks : List Int, (∀ k ∈ ks, slicePoints points k ≠ []) →
    (ks.map fun k => (k, slicePoints points k)).foldlM (fun h s => do let sorted ← sortSlice sort s.2; addSlice sorted h) [] =
      if (ks.flatMap fun k => sliceVotes (sorted sort (slicePoints points k))) = [] then some [] else none
  | [], _ => rfl
  | k :: ks, hk => by
    rw [List.map_cons, List.foldlM_cons]
    have e : sortSlice sort (slicePoints points k) = some (sorted sort (slicePoints points k)) := by
      unfold sortSlice
      rw [centroid_eq (hk k (by simp))]
      rfl
    simp only [Option.bind_eq_bind]
    rw [e, Option.bind_some, addSlice_nil, List.flatMap_cons]
    by_cases h : sliceVotes (sorted sort (slicePoints points k)) = []
    · rw [if_pos h, Option.bind_some, h, List.nil_append]
      exact fold_slices_nil sort points ks fun k' hk' => hk k' (List.mem_cons_of_mem _ hk')
    · rw [if_neg h, if_neg (by simp [h])]
      rfl

/-- Without buckets the first contribution indexes a vector without entries; there is no other failure. -/
theorem computeHistogram_zero (sort : List (ℝ × V3) → List (ℝ × V3)) (points : List V3) :
    computeHistogram sort points 0 = if allVotes sort points = [] then some [] else none := by
  unfold computeHistogram
  rw [slices_eq]
  exact fold_slices_nil sort points _ fun k hk => slicePoints_ne hk

/-! ### Motions of the points -/

/-- A motion of points together with what it does to horizontal differences. -/
structure Motion where
  point : V3 → V3
  turn : V2 → V2
  delta_eq : ∀ p q, delta (point p) (point q) = turn (delta p q)
  norm_eq : ∀ d, norm2 (turn d) = norm2 d
  weight_eq : ∀ d e, weight (turn d) (turn e) = weight d e
  mean_eq : ∀ s, s ≠ [] → mean (s.map point) = point (mean s)

theorem contributions_motion (T : Motion) (c : V3) : ∀ (ps : List V3) (last : V3),
    contributions (T.point c) (T.point last) (ps.map T.point) = (contributions c last ps).map fun x => (T.turn x.1, x.2)
  | [], last => rfl
  | p :: ps, last => by
    rw [List.map_cons]
    unfold contributions
    simp only [T.delta_eq, T.norm_eq, T.weight_eq]
    split
    · exact contributions_motion T c ps last
    · split
      · exact contributions_motion T c ps p
      · rw [List.map_cons, contributions_motion T c ps last]

theorem sliceVotes_motion (T : Motion) (s : List V3) : sliceVotes (s.map T.point) = (sliceVotes s).map fun x => (T.turn x.1, x.2) := by
  cases s with
  | nil => rfl
  | cons a s =>
    rw [List.map_cons]
    unfold sliceVotes
    dsimp only
    rw [← List.map_cons, T.mean_eq _ (by simp)]
    exact contributions_motion T _ _ _

/-- Horizontal translation. -/
noncomputable def shift (t : V2) : Motion where
  point p := ⟨p.x + t.x, p.y + t.y, p.z⟩
  turn := id
  delta_eq p q := by simp [delta]
  norm_eq d := rfl
  weight_eq d e := rfl
  mean_eq s hs := by
    have hl : (s.length : ℝ) ≠ 0 := by exact_mod_cast (List.length_pos_iff.2 hs).ne'
    unfold mean
    simp only [List.map_map, List.length_map, V3.mk.injEq]
    refine ⟨?_, ?_, rfl⟩
    · rw [show (V3.x ∘ fun p : V3 => (⟨p.x + t.x, p.y + t.y, p.z⟩ : V3)) = fun p => p.x + t.x from rfl, List.sum_map_add]
      simp only [List.map_const', List.sum_replicate, nsmul_eq_mul]
      field_simp
    · rw [show (V3.y ∘ fun p : V3 => (⟨p.x + t.x, p.y + t.y, p.z⟩ : V3)) = fun p => p.y + t.y from rfl, List.sum_map_add]
      simp only [List.map_const', List.sum_replicate, nsmul_eq_mul]
      field_simp

/-- Rotation of horizontal vectors. -/
noncomputable def rotate2 (α : ℝ) (d : V2) : V2 := ⟨Real.cos α * d.x - Real.sin α * d.y, Real.sin α * d.x + Real.cos α * d.y⟩

theorem rotate2_norm (α : ℝ) (d : V2) : norm2 (rotate2 α d) = norm2 d := by
  unfold norm2 rotate2
  congr 1
  have := Real.sin_sq_add_cos_sq α
  linear_combination (d.x * d.x + d.y * d.y) * this

/-- Rotation around the vertical axis. -/
noncomputable def spin (α : ℝ) : Motion where
  point p := ⟨Real.cos α * p.x - Real.sin α * p.y, Real.sin α * p.x + Real.cos α * p.y, p.z⟩
  turn := rotate2 α
  delta_eq p q := by unfold delta rotate2; dsimp only; congr 1 <;> ring
  norm_eq := rotate2_norm α
  weight_eq d e := by
    unfold weight
    rw [rotate2_norm, rotate2_norm]
    have := Real.sin_sq_add_cos_sq α
    have : (rotate2 α d).x / norm2 d * ((rotate2 α e).x / norm2 e) + (rotate2 α d).y / norm2 d * ((rotate2 α e).y / norm2 e) =
        d.x / norm2 d * (e.x / norm2 e) + d.y / norm2 d * (e.y / norm2 e) := by
      unfold rotate2
      dsimp only
      linear_combination (d.x / norm2 d * (e.x / norm2 e) + d.y / norm2 d * (e.y / norm2 e)) * this
    rw [this]
  mean_eq s hs := by
    unfold mean
    simp only [List.map_map, List.length_map, V3.mk.injEq]
    refine ⟨?_, ?_, rfl⟩
    · rw [show (V3.x ∘ fun p : V3 => (⟨Real.cos α * p.x - Real.sin α * p.y, Real.sin α * p.x + Real.cos α * p.y, p.z⟩ : V3)) =
        fun p => Real.cos α * p.x - Real.sin α * p.y from rfl]
      have h : ∀ s : List V3, (s.map fun p => Real.cos α * p.x - Real.sin α * p.y).sum = Real.cos α * (s.map V3.x).sum - Real.sin α * (s.map V3.y).sum := by
        intro s
        induction s with
        | nil => simp
        | cons a s ih => simp only [List.map_cons, List.sum_cons, ih]; ring
      rw [h]
      ring
    · rw [show (V3.y ∘ fun p : V3 => (⟨Real.cos α * p.x - Real.sin α * p.y, Real.sin α * p.x + Real.cos α * p.y, p.z⟩ : V3)) =
        fun p => Real.sin α * p.x + Real.cos α * p.y from rfl]
      have h : ∀ s : List V3, (s.map fun p => Real.sin α * p.x + Real.cos α * p.y).sum = Real.sin α * (s.map V3.x).sum + Real.cos α * (s.map V3.y).sum := by
        intro s
        induction s with
        | nil => simp
        | cons a s ih => simp only [List.map_cons, List.sum_cons, ih]; ring
      rw [h]
      ring

/-! ### Order and translation of the points -/

theorem strict_of_nodup {l : List (ℝ × V3)} (h : l.Pairwise (fun a b => a.1 ≤ b.1)) (hd : (l.map Prod.fst).Nodup) : l.Pairwise (fun a b => a.1 < b.1) :=
  (h.and (List.pairwise_map.1 hd)).imp fun ⟨h1, h2⟩ => lt_of_le_of_ne h1 h2

theorem sort_unique {sort sort' : List (ℝ × V3) → List (ℝ × V3)} (hs : IsSort sort) (hs' : IsSort sort') {l l' : List (ℝ × V3)} {g : ℝ × V3 → ℝ × V3}
    (hg : ∀ x, (g x).1 = x.1) (hp : l'.Perm (l.map g)) (hd : (l.map Prod.fst).Nodup) : sort' l' = (sort l).map g := by
  have e : Prod.fst ∘ g = Prod.fst := funext hg
  have hd' : (l'.map Prod.fst).Nodup := by
    rw [(hp.map Prod.fst).nodup_iff, List.map_map, e]
    exact hd
  have h1 : (sort' l').Perm ((sort l).map g) := (hs' l').1.trans (hp.trans ((hs l).1.map g).symm)
  refine h1.eq_of_pairwise (le := fun a b => a.1 < b.1) (fun a b _ _ h1 h2 => absurd h1 (not_lt.2 h2.le)) ?_ ?_
  · exact strict_of_nodup (hs' l').2 (by rw [((hs' l').1.map Prod.fst).nodup_iff]; exact hd')
  · rw [List.pairwise_map]
    simp only [hg]
    exact strict_of_nodup (hs l).2 (by rw [((hs l).1.map Prod.fst).nodup_iff]; exact hd)

/-- No two points of a slice are seen from its mean at the same angle, as far as they are not too close to the mean. -/
def Distinct (points : List V3) : Prop := ∀ k, ((byAngle (mean (slicePoints points k)) (slicePoints points k)).map Prod.fst).Nodup

theorem mean_perm {s s' : List V3} (h : s'.Perm s) : mean s' = mean s := by
  unfold mean
  rw [(h.map V3.x).sum_eq, (h.map V3.y).sum_eq, (h.map V3.z).sum_eq, h.length_eq]

theorem byAngle_shift (t : V2) (c : V3) (s : List V3) :
    byAngle ((shift t).point c) (s.map (shift t).point) = (byAngle c s).map fun x => (x.1, (shift t).point x.2) := by
  unfold byAngle
  rw [List.filter_map, List.map_map, List.map_map]
  have h1 : (fun p => !decide (norm2 (delta p ((shift t).point c)) < minDistance)) ∘ (shift t).point = fun p => !decide (norm2 (delta p c) < minDistance) := by
    funext p
    simp only [Function.comp, (shift t).delta_eq, (shift t).norm_eq]
  rw [h1]
  apply List.map_congr_left
  intro p _
  simp only [Function.comp, (shift t).delta_eq]
  rfl

theorem byAngle_perm (c : V3) {s s' : List V3} (h : s'.Perm s) : (byAngle c s').Perm (byAngle c s) := (h.filter _).map _

theorem slicePoints_shift (t : V2) (points : List V3) (k : Int) : slicePoints (points.map (shift t).point) k = (slicePoints points k).map (shift t).point := by
  unfold slicePoints
  rw [List.filter_map]
  rfl

theorem sliceKeys_congr {a b : List V3} (h : ∀ k, (∃ p ∈ a, sliceOf p = k) ↔ ∃ p ∈ b, sliceOf p = k) : sliceKeys a = sliceKeys b :=
  List.Pairwise.eq_of_mem_iff (sliceKeys_sorted a) (sliceKeys_sorted b) fun k => by rw [mem_sliceKeys, mem_sliceKeys, h]

/-- The order of the points, the way the sort works, and horizontal translations do not matter. -/
theorem histogram_invariant {sort sort' : List (ℝ × V3) → List (ℝ × V3)} (hs : IsSort sort) (hs' : IsSort sort') {points points' : List V3} (t : V2)
    (hp : points'.Perm (points.map (shift t).point)) (hd : Distinct points) (n : ℕ) (hn : 0 < n) :
    computeHistogram sort' points' n = computeHistogram sort points n := by
  rw [computeHistogram_eq _ _ hn, computeHistogram_eq _ _ hn]
  congr 2
  have hk : sliceKeys points' = sliceKeys points := by
    apply sliceKeys_congr
    intro k
    constructor
    · rintro ⟨p, hp', rfl⟩
      obtain ⟨q, hq, rfl⟩ := List.mem_map.1 (hp.mem_iff.1 hp')
      exact ⟨q, hq, rfl⟩
    · rintro ⟨q, hq, rfl⟩
      exact ⟨(shift t).point q, hp.mem_iff.2 (List.mem_map_of_mem hq), rfl⟩
  unfold allVotes
  rw [hk]
  refine List.flatMap_congr fun k hk => ?_
  have hne := slicePoints_ne hk
  have hperm : (slicePoints points' k).Perm ((slicePoints points k).map (shift t).point) := by
    rw [← slicePoints_shift]
    exact hp.filter _
  have e : sorted sort' (slicePoints points' k) = (sorted sort (slicePoints points k)).map (shift t).point := by
    unfold sorted
    rw [mean_perm hperm, (shift t).mean_eq _ hne,
      sort_unique hs hs' (g := fun x => (x.1, (shift t).point x.2)) (fun _ => rfl) ((byAngle_perm _ hperm).trans (by rw [byAngle_shift])) (hd k),
      List.map_map, List.map_map]
    rfl
  rw [e, sliceVotes_motion]
  show List.map (fun x => x) _ = _
  rw [List.map_id']

/-! ### Rotation of the points of a slice -/

theorem atan2_rotate (α : ℝ) {d : V2} (hd : d ≠ ⟨0, 0⟩) : ∃ m : ℤ, atan2 (rotate2 α d) = atan2 d + α + m * (2 * Real.pi) := by
  have e : (⟨(rotate2 α d).x, (rotate2 α d).y⟩ : ℂ) = ⟨d.x, d.y⟩ * ((Real.cos α : ℂ) + (Real.sin α : ℂ) * Complex.I) := by
    apply Complex.ext
    · simp only [rotate2, Complex.mul_re, Complex.mul_im, Complex.add_re, Complex.add_im, Complex.ofReal_re, Complex.ofReal_im, Complex.I_re, Complex.I_im]; ring
    · simp only [rotate2, Complex.mul_re, Complex.mul_im, Complex.add_re, Complex.add_im, Complex.ofReal_re, Complex.ofReal_im, Complex.I_re, Complex.I_im]; ring
  have h0 : (⟨d.x, d.y⟩ : ℂ) ≠ 0 := by
    intro hc
    apply hd
    have h1 := congrArg Complex.re hc
    have h2 := congrArg Complex.im hc
    cases d
    simp_all
  have h1 : ((Real.cos α : ℂ) + (Real.sin α : ℂ) * Complex.I) ≠ 0 := by
    rw [Complex.ofReal_cos, Complex.ofReal_sin, ← Complex.exp_mul_I]
    exact Complex.exp_ne_zero _
  have h2 := Complex.arg_mul_coe_angle h0 h1
  have h3 := Complex.arg_cos_add_sin_mul_I_coe_angle (α : Real.Angle)
  rw [Real.Angle.cos_coe, Real.Angle.sin_coe] at h3
  rw [h3, ← e] at h2
  rw [← Real.Angle.coe_add] at h2
  obtain ⟨m, hm⟩ := Real.Angle.angle_eq_iff_two_pi_dvd_sub.1 h2
  refine ⟨m, ?_⟩
  unfold atan2
  linarith

/-- Directions other than that of the negative axis, which is counted at the wrong end. -/
def Forward (d : V2) : Prop := d ≠ ⟨0, 0⟩ ∧ ¬ (d.y = 0 ∧ d.x < 0)

theorem forward_fract {d : V2} (h : Forward d) (h0 : 0 < atan2 d) : Int.fract (atan2 d / Real.pi) ≠ 0 := by
  intro hc
  have hpi := Real.pi_pos
  have h1 : atan2 d ≤ Real.pi := Complex.arg_le_pi _
  have h2 : atan2 d ≠ Real.pi := by
    intro he
    have := Complex.arg_eq_pi_iff.1 he
    exact h.2 ⟨this.2, this.1⟩
  have h3 : atan2 d / Real.pi < 1 := (div_lt_one hpi).2 (lt_of_le_of_ne h1 h2)
  have h4 : 0 < atan2 d / Real.pi := div_pos h0 hpi
  rw [Int.fract_eq_self.2 ⟨h4.le, h3⟩] at hc
  linarith

theorem bucket_mod {n : ℕ} (hn : 0 < n) {a : ℝ} (h : 0 < a → Int.fract (a / Real.pi) ≠ 0) : (bucket n a : ℤ) = ⌊n * (a / Real.pi)⌋ % n := by
  have e : ⌊(n : ℝ) * Int.fract (a / Real.pi)⌋ = ⌊(n : ℝ) * (a / Real.pi)⌋ - n * ⌊a / Real.pi⌋ := by
    rw [show (n : ℝ) * Int.fract (a / Real.pi) = n * (a / Real.pi) - ((n * ⌊a / Real.pi⌋ : ℤ) : ℝ) by
      unfold Int.fract; push_cast; ring, Int.floor_sub_intCast]
  have hlt := bucket_lt hn a
  have hb : bucket n a = (⌊(n : ℝ) * Int.fract (a / Real.pi)⌋).toNat := by
    unfold bucket
    rw [if_neg fun hc => h hc.1 hc.2]
  have h0 : 0 ≤ ⌊(n : ℝ) * Int.fract (a / Real.pi)⌋ := Int.floor_nonneg.2 (mul_nonneg (by positivity) (Int.fract_nonneg _))
  have hb' : (bucket n a : ℤ) = ⌊(n : ℝ) * (a / Real.pi)⌋ - n * ⌊a / Real.pi⌋ := by omega
  rw [show ⌊(n : ℝ) * (a / Real.pi)⌋ = bucket n a + n * ⌊a / Real.pi⌋ by omega, Int.add_mul_emod_self_left, Int.emod_eq_of_lt (by omega) (by omega)]

theorem bucket_rotate {n : ℕ} (hn : 0 < n) (k : ℤ) {d : V2} (h : Forward d) (h' : Forward (rotate2 (k * Real.pi / n) d)) :
    (bucket n (atan2 (rotate2 (k * Real.pi / n) d)) : ℤ) = (bucket n (atan2 d) + k) % n := by
  have hn' : (n : ℝ) ≠ 0 := by exact_mod_cast hn.ne'
  rw [bucket_mod hn (forward_fract h'), bucket_mod hn (forward_fract h)]
  obtain ⟨m, hm⟩ := atan2_rotate (k * Real.pi / n) h.1
  rw [hm]
  have e : (n : ℝ) * ((atan2 d + k * Real.pi / n + m * (2 * Real.pi)) / Real.pi) = n * (atan2 d / Real.pi) + ((k + n * (2 * m) : ℤ) : ℝ) := by
    have := Real.pi_ne_zero
    push_cast
    field_simp
    ring
  rw [e, Int.floor_add_intCast, ← add_assoc, Int.add_mul_emod_self_left, Int.emod_add_emod]

theorem votes_length (n : ℕ) (xs : List (V2 × ℝ)) : (votes n xs).length = n := by simp [votes]

theorem cyc_votes {n : ℕ} (hn : 0 < n) (xs : List (V2 × ℝ)) (j : ℤ) :
    cyc (votes n xs) j = (xs.map fun x => if (bucket n (atan2 x.1) : ℤ) = j % n then x.2 else 0).sum := by
  have hne : votes n xs ≠ [] := by
    intro hc
    have := congrArg List.length hc
    rw [votes_length] at this
    simp at this
    omega
  obtain ⟨h1, h2⟩ := emod_lt hne j
  rw [votes_length] at h1 h2
  unfold cyc
  rw [votes_length]
  unfold votes
  rw [List.getElem?_map, List.getElem?_range h2, Option.map_some, Option.getD_some]
  congr 1
  apply List.map_congr_left
  intro x _
  by_cases h : (bucket n (atan2 x.1) : ℤ) = j % n
  · rw [if_pos h, if_pos (by omega)]
  · rw [if_neg h, if_neg (by omega)]

/-- Rotating directions by whole buckets rotates their histogram. -/
theorem votes_rotate {n : ℕ} (hn : 0 < n) (k : ℤ) {xs : List (V2 × ℝ)} (h : ∀ x ∈ xs, Forward x.1 ∧ Forward (rotate2 (k * Real.pi / n) x.1)) :
    rotateHistogram (votes n xs) (k * Real.pi / n) = some (votes n (xs.map fun x => (rotate2 (k * Real.pi / n) x.1, x.2))) := by
  have hne : votes n xs ≠ [] := by
    intro hc
    have := congrArg List.length hc
    rw [votes_length] at this
    simp at this
    omega
  have hr := rotate_whole hne k
  rw [votes_length] at hr
  rw [hr]
  congr 1
  conv_rhs => unfold votes
  apply List.map_congr_left
  intro i hi
  have hi : i < n := by simpa using hi
  rw [cyc_votes hn, List.map_map]
  congr 1
  apply List.map_congr_left
  intro x hx
  obtain ⟨h1, h2⟩ := h x hx
  have hb := bucket_rotate hn k h1 h2
  have hlt := bucket_lt hn (atan2 x.1)
  simp only [Function.comp]
  have : (bucket n (atan2 x.1) : ℤ) = (i - k) % n ↔ bucket n (atan2 (rotate2 (k * Real.pi / n) x.1)) = i := by
    constructor
    · intro e
      rw [e, Int.emod_add_emod, sub_add_cancel, Int.emod_eq_of_lt (by omega) (by omega)] at hb
      omega
    · intro e
      rw [e] at hb
      rw [hb, Int.emod_sub_emod, add_sub_cancel_right, Int.emod_eq_of_lt (by omega) (by omega)]
  by_cases hc : (bucket n (atan2 x.1) : ℤ) = (i - k) % n
  · rw [if_pos hc, if_pos (this.1 hc)]
  · rw [if_neg hc, if_neg fun e => hc (this.2 e)]

/-- The histogram of a slice that is rotated by whole buckets around the vertical axis is the rotated histogram of the slice, as long as no counted
direction lies on the negative axis before or afterwards and the points keep their order. -/
theorem addSlice_rotate {n : ℕ} (hn : 0 < n) (k : ℤ) {s : List V3} (h : ∀ x ∈ sliceVotes s, Forward x.1 ∧ Forward (rotate2 (k * Real.pi / n) x.1)) :
    addSlice (s.map (spin (k * Real.pi / n)).point) (List.replicate n 0) =
      (addSlice s (List.replicate n 0)).bind fun g => rotateHistogram g (k * Real.pi / n) := by
  have hne : List.replicate n (0 : ℝ) ≠ [] := by simp; omega
  rw [addSlice_eq hne, addSlice_eq hne, added_zero, added_zero, Option.bind_some, votes_rotate hn k h, sliceVotes_motion]
  rfl

/-- A slice is recognised at the angle by which it is rotated. -/
theorem match_rotated {n : ℕ} (hn : 0 < n) (k : ℤ) {s : List V3} (h : ∀ x ∈ sliceVotes s, Forward x.1 ∧ Forward (rotate2 (k * Real.pi / n) x.1)) (initial angle : ℝ)
    (ha : initial + angle = k * Real.pi / n) {scan submap : List ℝ} (h1 : addSlice s (List.replicate n 0) = some scan)
    (h2 : addSlice (s.map (spin (k * Real.pi / n)).point) (List.replicate n 0) = some submap) : «match» submap scan initial [angle] = some [1] := by
  rw [addSlice_rotate hn k h, h1, Option.bind_some] at h2
  unfold «match»
  rw [List.mapM_cons, List.mapM_nil, ha]
  simp only [Option.bind_eq_bind]
  rw [h2, Option.bind_some, matchHistograms_self]
  rfl

/-! ### Rotation of a whole scan

The points are ordered by an angle that starts at the negative axis, so a rotated scan has other first points, and other pairs count. -/

theorem norm2_ge {v : V2} (h : 1 / 25 ≤ v.x ^ 2 + v.y ^ 2) : ¬ norm2 v < minDistance := by
  rw [not_lt]
  unfold norm2 minDistance
  apply Real.le_sqrt_of_sq_le
  nlinarith

theorem norm2_le {v : V2} (h : v.x ^ 2 + v.y ^ 2 ≤ 81 / 100) : ¬ maxDistance < norm2 v := by
  rw [not_lt]
  unfold norm2 maxDistance
  rw [Real.sqrt_le_left (by norm_num)]
  nlinarith

theorem weight_ge {d e : V2} {t : ℝ} (ht : t ≤ 1) (hd : 0 < d.x ^ 2 + d.y ^ 2) (he : 0 < e.x ^ 2 + e.y ^ 2)
    (h : (d.x * e.x + d.y * e.y) ^ 2 ≤ (1 - t) ^ 2 * ((d.x ^ 2 + d.y ^ 2) * (e.x ^ 2 + e.y ^ 2))) : t ≤ weight d e := by
  have pos : ∀ v : V2, 0 < v.x ^ 2 + v.y ^ 2 → 0 < norm2 v ∧ v ≠ ⟨0, 0⟩ := by
    intro v hv
    refine ⟨?_, ?_⟩
    · rw [norm2, Real.sqrt_pos]
      nlinarith
    · rintro rfl
      norm_num at hv
  obtain ⟨d1, d2⟩ := pos d hd
  obtain ⟨e1, e2⟩ := pos e he
  rw [weight_eq d2 e2]
  have h1 : |d.x * e.x + d.y * e.y| ≤ (1 - t) * (norm2 d * norm2 e) := by
    apply abs_le_of_sq_le_sq _ (mul_nonneg (by linarith) (mul_nonneg d1.le e1.le))
    rw [mul_pow, mul_pow, norm2_sq, norm2_sq]
    exact h
  have := (div_le_iff₀ (mul_pos d1 e1)).2 h1
  linarith

theorem sort_sorted {sort : List (ℝ × V3) → List (ℝ × V3)} (hs : IsSort sort) {l l' : List (ℝ × V3)} (hp : l.Perm l') (h : l'.Pairwise fun a b => a.1 < b.1) : sort l = l' := by
  have hd : (l'.map Prod.fst).Nodup := List.pairwise_map.2 (h.imp fun h => ne_of_lt h)
  have h1 : (sort l).Perm l' := (hs l).1.trans hp
  refine h1.eq_of_pairwise (le := fun a b => a.1 < b.1) (fun a b _ _ h1 h2 => absurd h1 (not_lt.2 h2.le)) ?_ h
  exact strict_of_nodup (hs l).2 (by rw [((hs l).1.map Prod.fst).nodup_iff, (hp.map Prod.fst).nodup_iff]; exact hd)

theorem bucket_two {a : ℝ} (h1 : Real.pi / 2 ≤ a) (h2 : a < Real.pi) : bucket 2 a = 1 := by
  have hpi := Real.pi_pos
  have e1 : 1 / 2 ≤ a / Real.pi := by rw [le_div_iff₀ hpi]; linarith
  have e2 : a / Real.pi < 1 := (div_lt_one hpi).2 h2
  have hf : Int.fract (a / Real.pi) = a / Real.pi := Int.fract_eq_self.2 ⟨by linarith, e2⟩
  unfold bucket
  rw [hf, if_neg (by rintro ⟨_, h⟩; linarith)]
  have : ⌊((2 : ℕ) : ℝ) * (a / Real.pi)⌋ = 1 := by
    rw [Int.floor_eq_iff]
    push_cast
    constructor <;> linarith
  rw [this]
  rfl

/-- Three corners at one height. -/
noncomputable def corner : List V3 := [⟨0, 0, 0⟩, ⟨1 / 2, 0, 0⟩, ⟨0, 1 / 2, 0⟩]

/-- The same corners after half a turn. -/
noncomputable def turnedCorner : List V3 := [⟨0, 0, 0⟩, ⟨-1 / 2, 0, 0⟩, ⟨0, -1 / 2, 0⟩]

theorem turnedCorner_eq : turnedCorner = corner.map (spin Real.pi).point := by
  unfold turnedCorner corner spin
  norm_num [Real.cos_pi, Real.sin_pi]

theorem flat_keys {points : List V3} (h : ∀ p ∈ points, p.z = 0) (hne : points ≠ []) : sliceKeys points = [0] := by
  have h0 : ∀ p ∈ points, sliceOf p = 0 := by
    intro p hp
    unfold sliceOf RealTime.round
    rw [h p hp]
    norm_num
  apply List.Pairwise.eq_of_mem_iff (sliceKeys_sorted points) (List.pairwise_singleton _ _)
  intro k
  rw [mem_sliceKeys, List.mem_singleton]
  constructor
  · rintro ⟨p, hp, rfl⟩
    exact h0 p hp
  · rintro rfl
    obtain ⟨p, hp⟩ := List.exists_mem_of_ne_nil _ hne
    exact ⟨p, hp, h0 p hp⟩

theorem flat_points {points : List V3} (h : ∀ p ∈ points, p.z = 0) : slicePoints points 0 = points := by
  unfold slicePoints
  rw [List.filter_eq_self]
  intro p hp
  unfold sliceOf RealTime.round
  rw [h p hp]
  norm_num

theorem flat_votes (sort : List (ℝ × V3) → List (ℝ × V3)) {points : List V3} (h : ∀ p ∈ points, p.z = 0) (hne : points ≠ []) :
    allVotes sort points = sliceVotes (sorted sort points) := by
  unfold allVotes
  rw [flat_keys h hne, List.flatMap_cons, List.flatMap_nil, List.append_nil, flat_points h]

theorem corner_mean : mean corner = ⟨1 / 6, 1 / 6, 0⟩ := by
  unfold mean corner
  norm_num

theorem turnedCorner_mean : mean turnedCorner = ⟨-1 / 6, -1 / 6, 0⟩ := by
  unfold mean turnedCorner
  norm_num

theorem corner_angles : (byAngle ⟨1 / 6, 1 / 6, 0⟩ corner).Pairwise (fun a b => a.1 < b.1) ∧ (byAngle ⟨1 / 6, 1 / 6, 0⟩ corner).map Prod.snd = corner := by
  have hb : byAngle ⟨1 / 6, 1 / 6, 0⟩ corner =
      [(atan2 ⟨0 - 1 / 6, 0 - 1 / 6⟩, ⟨0, 0, 0⟩), (atan2 ⟨1 / 2 - 1 / 6, 0 - 1 / 6⟩, ⟨1 / 2, 0, 0⟩), (atan2 ⟨0 - 1 / 6, 1 / 2 - 1 / 6⟩, ⟨0, 1 / 2, 0⟩)] := by
    unfold byAngle corner
    rw [List.filter_eq_self.2]
    · rfl
    · intro p hp
      simp only [List.mem_cons, List.not_mem_nil, or_false] at hp
      rcases hp with rfl | rfl | rfl <;> simp only [Bool.not_eq_true', decide_eq_false_iff_not] <;> apply norm2_ge <;> unfold delta <;> norm_num
  have a1 : atan2 ⟨0 - 1 / 6, 0 - 1 / 6⟩ < -(Real.pi / 2) := by
    rw [← not_le]
    unfold atan2
    rw [Complex.neg_pi_div_two_le_arg_iff]
    norm_num
  have b1 : -(Real.pi / 2) ≤ atan2 ⟨1 / 2 - 1 / 6, 0 - 1 / 6⟩ := by
    unfold atan2
    rw [Complex.neg_pi_div_two_le_arg_iff]
    norm_num
  have b2 : atan2 ⟨1 / 2 - 1 / 6, 0 - 1 / 6⟩ < 0 := by
    unfold atan2
    rw [Complex.arg_neg_iff]
    norm_num
  have c1 : 0 ≤ atan2 ⟨0 - 1 / 6, 1 / 2 - 1 / 6⟩ := by
    unfold atan2
    rw [Complex.arg_nonneg_iff]
    norm_num
  rw [hb]
  refine ⟨?_, rfl⟩
  · simp only [List.pairwise_cons, List.mem_cons, List.not_mem_nil, or_false, forall_eq_or_imp, forall_eq, IsEmpty.forall_iff, implies_true, and_true, List.Pairwise.nil]
    refine ⟨⟨by linarith, by linarith⟩, by linarith⟩

theorem corner_sorted {sort : List (ℝ × V3) → List (ℝ × V3)} (hs : IsSort sort) : sorted sort corner = corner := by
  unfold sorted
  rw [corner_mean, sort_sorted hs (List.Perm.refl _) corner_angles.1]
  exact corner_angles.2

theorem turnedCorner_sorted {sort : List (ℝ × V3) → List (ℝ × V3)} (hs : IsSort sort) : sorted sort turnedCorner = [⟨0, -1 / 2, 0⟩, ⟨0, 0, 0⟩, ⟨-1 / 2, 0, 0⟩] := by
  unfold sorted
  rw [turnedCorner_mean]
  have hb : byAngle ⟨-1 / 6, -1 / 6, 0⟩ turnedCorner =
      [(atan2 ⟨0 - -1 / 6, 0 - -1 / 6⟩, ⟨0, 0, 0⟩), (atan2 ⟨-1 / 2 - -1 / 6, 0 - -1 / 6⟩, ⟨-1 / 2, 0, 0⟩), (atan2 ⟨0 - -1 / 6, -1 / 2 - -1 / 6⟩, ⟨0, -1 / 2, 0⟩)] := by
    unfold byAngle turnedCorner
    rw [List.filter_eq_self.2]
    · rfl
    · intro p hp
      simp only [List.mem_cons, List.not_mem_nil, or_false] at hp
      rcases hp with rfl | rfl | rfl <;> simp only [Bool.not_eq_true', decide_eq_false_iff_not] <;> apply norm2_ge <;> unfold delta <;> norm_num
  have a1 : 0 ≤ atan2 ⟨0 - -1 / 6, 0 - -1 / 6⟩ := by
    unfold atan2
    rw [Complex.arg_nonneg_iff]
    norm_num
  have a2 : atan2 ⟨0 - -1 / 6, 0 - -1 / 6⟩ ≤ Real.pi / 2 := by
    unfold atan2
    rw [Complex.arg_le_pi_div_two_iff]
    norm_num
  have b1 : Real.pi / 2 < atan2 ⟨-1 / 2 - -1 / 6, 0 - -1 / 6⟩ := by
    rw [← not_le]
    unfold atan2
    rw [Complex.arg_le_pi_div_two_iff]
    norm_num
  have c1 : atan2 ⟨0 - -1 / 6, -1 / 2 - -1 / 6⟩ < 0 := by
    unfold atan2
    rw [Complex.arg_neg_iff]
    norm_num
  rw [hb, sort_sorted hs (l' := [(atan2 ⟨0 - -1 / 6, -1 / 2 - -1 / 6⟩, ⟨0, -1 / 2, 0⟩), (atan2 ⟨0 - -1 / 6, 0 - -1 / 6⟩, ⟨0, 0, 0⟩),
    (atan2 ⟨-1 / 2 - -1 / 6, 0 - -1 / 6⟩, ⟨-1 / 2, 0, 0⟩)])]
  · rfl
  · exact List.perm_append_comm (l₁ := [_, _]) (l₂ := [_])
  · simp only [List.pairwise_cons, List.mem_cons, List.not_mem_nil, or_false, forall_eq_or_imp, forall_eq, IsEmpty.forall_iff, implies_true, and_true, List.Pairwise.nil]
    refine ⟨⟨by linarith, by linarith⟩, by linarith⟩

/-- The pairs of three points at moderate distances from the first one. -/
theorem three_votes {a b c : V3} (h1 : 1 / 25 ≤ (b.x - a.x) ^ 2 + (b.y - a.y) ^ 2) (h2 : (b.x - a.x) ^ 2 + (b.y - a.y) ^ 2 ≤ 81 / 100)
    (h3 : 1 / 25 ≤ (c.x - a.x) ^ 2 + (c.y - a.y) ^ 2) (h4 : (c.x - a.x) ^ 2 + (c.y - a.y) ^ 2 ≤ 81 / 100)
    (h5 : 1 / 25 ≤ (b.x - (mean [a, b, c]).x) ^ 2 + (b.y - (mean [a, b, c]).y) ^ 2) (h6 : 1 / 25 ≤ (c.x - (mean [a, b, c]).x) ^ 2 + (c.y - (mean [a, b, c]).y) ^ 2) :
    sliceVotes [a, b, c] = [(delta b a, weight (delta b a) (delta b (mean [a, b, c]))), (delta c a, weight (delta c a) (delta c (mean [a, b, c])))] := by
  have h0 : norm2 (delta a a) < minDistance := by
    unfold delta minDistance
    rw [sub_self, sub_self, norm2_zero]
    norm_num
  unfold sliceVotes
  dsimp only
  rw [contributions, if_pos (Or.inl h0), contributions, if_neg (not_or.2 ⟨norm2_ge h1, norm2_ge h5⟩), if_neg (norm2_le h2),
    contributions, if_neg (not_or.2 ⟨norm2_ge h3, norm2_ge h6⟩), if_neg (norm2_le h4), contributions]

theorem votes_two (x y : V2 × ℝ) : votes 2 [x, y] = [(if bucket 2 (atan2 x.1) = 0 then x.2 else 0) + (if bucket 2 (atan2 y.1) = 0 then y.2 else 0),
    (if bucket 2 (atan2 x.1) = 1 then x.2 else 0) + (if bucket 2 (atan2 y.1) = 1 then y.2 else 0)] := by
  simp [votes, List.range_succ]

/-- The histogram of the corner. -/
theorem corner_histogram {sort : List (ℝ × V3) → List (ℝ × V3)} (hs : IsSort sort) : ∃ u v, 1 / 10 ≤ u ∧ 1 / 10 ≤ v ∧ computeHistogram sort corner 2 = some [u, v] := by
  have hv : allVotes sort corner = [(⟨1 / 2, 0⟩, weight ⟨1 / 2, 0⟩ ⟨1 / 3, -1 / 6⟩), (⟨0, 1 / 2⟩, weight ⟨0, 1 / 2⟩ ⟨-1 / 6, 1 / 3⟩)] := by
    have hm : mean [⟨0, 0, 0⟩, ⟨1 / 2, 0, 0⟩, ⟨0, 1 / 2, 0⟩] = ⟨1 / 6, 1 / 6, 0⟩ := corner_mean
    rw [flat_votes sort (by simp [corner]) (by simp [corner]), corner_sorted hs, corner, three_votes] <;> try rw [hm]
    · unfold delta; norm_num
    all_goals norm_num
  refine ⟨weight ⟨1 / 2, 0⟩ ⟨1 / 3, -1 / 6⟩, weight ⟨0, 1 / 2⟩ ⟨-1 / 6, 1 / 3⟩, by apply weight_ge <;> norm_num, by apply weight_ge <;> norm_num, ?_⟩
  rw [computeHistogram_eq _ _ (by norm_num), hv]
  have b0 : bucket 2 (atan2 ⟨1 / 2, 0⟩) = 0 := by
    have : atan2 ⟨1 / 2, 0⟩ = 0 := Complex.arg_eq_zero_iff.2 ⟨by norm_num, rfl⟩
    rw [this]
    unfold bucket
    rw [if_neg (by simp)]
    simp
  have b1 : bucket 2 (atan2 ⟨0, 1 / 2⟩) = 1 := by
    have : atan2 ⟨0, 1 / 2⟩ = Real.pi / 2 := Complex.arg_eq_pi_div_two_iff.2 ⟨rfl, by norm_num⟩
    rw [this]
    exact bucket_two (le_refl _) (by linarith [Real.pi_pos])
  rw [votes_two]
  dsimp only
  rw [b0, b1]
  simp

/-- The histogram of the turned corner. -/
theorem turnedCorner_histogram {sort : List (ℝ × V3) → List (ℝ × V3)} (hs : IsSort sort) : ∃ v, 1 / 10 ≤ v ∧ computeHistogram sort turnedCorner 2 = some [0, v] := by
  have hm : mean [⟨0, -1 / 2, 0⟩, ⟨0, 0, 0⟩, ⟨-1 / 2, 0, 0⟩] = ⟨-1 / 6, -1 / 6, 0⟩ := by
    unfold mean
    norm_num
  have hv : allVotes sort turnedCorner = [(⟨0, 1 / 2⟩, weight ⟨0, 1 / 2⟩ ⟨1 / 6, 1 / 6⟩), (⟨-1 / 2, 1 / 2⟩, weight ⟨-1 / 2, 1 / 2⟩ ⟨-1 / 3, 1 / 6⟩)] := by
    rw [flat_votes sort (by simp [turnedCorner]) (by simp [turnedCorner]), turnedCorner_sorted hs, three_votes] <;> try rw [hm]
    · unfold delta; norm_num
    all_goals norm_num
  have w1 : 1 / 10 ≤ weight ⟨0, 1 / 2⟩ ⟨1 / 6, 1 / 6⟩ := by
    apply weight_ge <;> norm_num
  have w2 : 0 ≤ weight ⟨-1 / 2, 1 / 2⟩ ⟨-1 / 3, 1 / 6⟩ := le_max_left _ _
  refine ⟨weight ⟨0, 1 / 2⟩ ⟨1 / 6, 1 / 6⟩ + weight ⟨-1 / 2, 1 / 2⟩ ⟨-1 / 3, 1 / 6⟩, by linarith, ?_⟩
  rw [computeHistogram_eq _ _ (by norm_num), hv]
  have b0 : bucket 2 (atan2 ⟨0, 1 / 2⟩) = 1 := by
    have : atan2 ⟨0, 1 / 2⟩ = Real.pi / 2 := Complex.arg_eq_pi_div_two_iff.2 ⟨rfl, by norm_num⟩
    rw [this]
    exact bucket_two (le_refl _) (by linarith [Real.pi_pos])
  have b1 : bucket 2 (atan2 ⟨-1 / 2, 1 / 2⟩) = 1 := by
    apply bucket_two
    · by_contra hc
      have := (Complex.arg_le_pi_div_two_iff (z := ⟨-1 / 2, 1 / 2⟩)).1 (not_le.1 hc).le
      norm_num at this
    · refine lt_of_le_of_ne (Complex.arg_le_pi _) fun he => ?_
      have := Complex.arg_eq_pi_iff.1 he
      norm_num at this
  rw [votes_two]
  dsimp only
  rw [b0, b1]
  simp

/-- A scan that is only rotated by half a turn is not recognised with the full score at this angle. -/
theorem match_not_rotated {sort : List (ℝ × V3) → List (ℝ × V3)} (hs : IsSort sort) : ∃ scan submap score, computeHistogram sort corner 2 = some scan ∧
    computeHistogram sort (corner.map (spin Real.pi).point) 2 = some submap ∧ «match» submap scan 0 [Real.pi] = some [score] ∧ score < 1 := by
  obtain ⟨u, v, hu, hv, h1⟩ := corner_histogram hs
  obtain ⟨w, hw, h2⟩ := turnedCorner_histogram hs
  rw [turnedCorner_eq] at h2
  have hr : rotateHistogram [u, v] Real.pi = some [u, v] := by
    have := rotate_period [u, v] 0 1
    rwa [rotate_zero, Int.cast_one, one_mul, zero_add] at this
  obtain ⟨s, e, s0, s1⟩ := matchHistograms_range (a := [0, w]) (b := [u, v]) rfl (by simp; linarith) (by simp; constructor <;> linarith)
  refine ⟨[u, v], [0, w], s, h1, h2, ?_, ?_⟩
  · unfold «match»
    rw [List.mapM_cons, List.mapM_nil, zero_add]
    simp only [Option.bind_eq_bind]
    rw [hr, Option.bind_some, e]
    rfl
  · refine lt_of_le_of_ne s1 ?_
    rintro rfl
    have n1 : 1 / 10 ≤ norm [u, v] := by
      unfold norm
      apply Real.le_sqrt_of_sq_le
      simp only [List.map_cons, List.map_nil, List.sum_cons, List.sum_nil]
      nlinarith
    have n2 : 1 / 10 ≤ norm [0, w] := by
      unfold norm
      apply Real.le_sqrt_of_sq_le
      simp only [List.map_cons, List.map_nil, List.sum_cons, List.sum_nil]
      nlinarith
    have := (matchHistograms_one (by nlinarith) e).2 (0, u) (by simp)
    dsimp only at this
    nlinarith

/-! ### Instances -/

theorem exists_sort : ∃ sort, IsSort sort := by
  classical
  refine ⟨fun l => l.mergeSort fun a b => decide (a.1 ≤ b.1), fun l => ⟨List.mergeSort_perm _ _, ?_⟩⟩
  have := List.pairwise_mergeSort (le := fun a b : ℝ × V3 => decide (a.1 ≤ b.1)) (fun a b c h1 h2 => by
    simp only [decide_eq_true_eq] at *
    linarith) (fun a b => by
    simp only [Bool.or_eq_true, decide_eq_true_eq]
    exact le_total _ _) l
  exact this.imp fun h => by simpa using h

theorem corner_distinct : Distinct corner := by
  intro k
  by_cases hk : k = 0
  · subst hk
    rw [flat_points (by simp [corner]), corner_mean]
    exact List.pairwise_map.2 (corner_angles.1.imp fun h => ne_of_lt h)
  · have : slicePoints corner k = [] := by
      unfold slicePoints
      rw [List.filter_eq_nil_iff]
      intro p hp
      have : sliceOf p = 0 := by
        have hz : p.z = 0 := by
          revert p
          simp [corner]
        unfold sliceOf RealTime.round
        rw [hz]
        norm_num
      rw [this]
      simpa using Ne.symm hk
    rw [this]
    simp [byAngle]

example : ∃ sort u v, IsSort sort ∧ 1 / 10 ≤ u ∧ 1 / 10 ≤ v ∧ computeHistogram sort [⟨7, 9, 0⟩, ⟨15 / 2, 9, 0⟩, ⟨7, 19 / 2, 0⟩] 2 = some [u, v] := by
  obtain ⟨sort, hs⟩ := exists_sort
  obtain ⟨u, v, hu, hv, h⟩ := corner_histogram hs
  refine ⟨sort, u, v, hs, hu, hv, ?_⟩
  rw [← h]
  refine histogram_invariant hs hs ⟨7, 9⟩ ?_ corner_distinct 2 (by norm_num)
  unfold corner shift
  norm_num

example : ∃ scan submap, addSlice corner (List.replicate 4 0) = some scan ∧
    addSlice (corner.map (spin (((1 : ℤ) : ℝ) * Real.pi / (4 : ℕ))).point) (List.replicate 4 0) = some submap ∧ «match» submap scan (Real.pi / 4) [0] = some [1] := by
  have hm : mean [⟨0, 0, 0⟩, ⟨1 / 2, 0, 0⟩, ⟨0, 1 / 2, 0⟩] = ⟨1 / 6, 1 / 6, 0⟩ := corner_mean
  have hv : sliceVotes corner = [(⟨1 / 2, 0⟩, weight ⟨1 / 2, 0⟩ ⟨1 / 3, -1 / 6⟩), (⟨0, 1 / 2⟩, weight ⟨0, 1 / 2⟩ ⟨-1 / 6, 1 / 3⟩)] := by
    rw [corner, three_votes] <;> try rw [hm]
    · unfold delta; norm_num
    all_goals norm_num
  refine ⟨_, _, addSlice_eq (by simp) _, addSlice_eq (by simp) _, ?_⟩
  refine match_rotated (n := 4) (s := corner) (by norm_num) 1 ?_ _ _ (by push_cast; ring) (addSlice_eq (by simp) _) (addSlice_eq (by simp) _)
  rw [hv]
  have e : ((1 : ℤ) : ℝ) * Real.pi / (4 : ℕ) = Real.pi / 4 := by push_cast; ring
  have h2 : (0 : ℝ) < √2 := Real.sqrt_pos.2 (by norm_num)
  simp only [List.mem_cons, List.not_mem_nil, or_false, forall_eq_or_imp, forall_eq, e]
  unfold Forward rotate2
  rw [Real.cos_pi_div_four, Real.sin_pi_div_four]
  refine ⟨⟨⟨by simp, by norm_num⟩, by simp, ?_⟩, ⟨by simp, by norm_num⟩, by simp, ?_⟩
  · rintro ⟨h, _⟩
    dsimp only at h
    linarith
  · rintro ⟨h, _⟩
    dsimp only at h
    linarith

end Verif.Rotational
