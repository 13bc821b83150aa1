import Verif.Props.PrecomputationGrid2D
import Mathlib.Algebra.Order.BigOperators.Group.List
import Mathlib.Algebra.Order.Ring.Int
import Mathlib.Tactic.Ring
import Mathlib.Data.List.Sort

/-!
# Branch and bound finds the best pose in the search window (C38)
-/

namespace Verif.FastCorrelative

variable {K : Type} [LinearOrder K]

/-- The pose `(k, x, y)` is in the search window. -/
def InWindow (e : Setting K) (k : Nat) (x y : Int) : Prop :=
  k < e.scans.length ∧ (e.bound k).minX ≤ x ∧ x ≤ (e.bound k).maxX ∧ (e.bound k).minY ≤ y ∧ y ≤ (e.bound k).maxY

/-- What the search relies on. -/
structure Good (e : Setting K) (maxDepth : Nat) : Prop where
  mono : ∀ n a b, a ≤ b → e.toScore n a ≤ e.toScore n b
  perm : ∀ l, (e.sort l).Perm l
  sorted : ∀ l, (e.sort l).Pairwise (fun a b => b.score ≤ a.score)
  /-- Coarse values bound fine ones. -/
  bound : ∀ d, d ≤ maxDepth → ∀ k x y, InWindow e k x y → ∀ p ∈ e.scan k, ∀ dx dy : Int, 0 ≤ dx → dx < 2 ^ d →
    0 ≤ dy → dy < 2 ^ d → e.value 0 (p.1 + (x + dx)) (p.2 + (y + dy)) ≤ e.value d (p.1 + x) (p.2 + y)
  nonempty : e.scans ≠ []
  window : ∀ k, k < e.scans.length → (e.bound k).minX ≤ (e.bound k).maxX ∧ (e.bound k).minY ≤ (e.bound k).maxY

/-- The pose `(k, x, y)` is among those that `c` stands for at depth `d`. -/
def Leaf (e : Setting K) (d : Nat) (c : Candidate K) (k : Nat) (x y : Int) : Prop :=
  c.scan = k ∧ c.x ≤ x ∧ x < c.x + 2 ^ d ∧ c.y ≤ y ∧ y < c.y + 2 ^ d ∧
    x ≤ (e.bound k).maxX ∧ y ≤ (e.bound k).maxY

/-- A candidate of depth `d`. -/
def IsCandidate (e : Setting K) (d : Nat) (c : Candidate K) : Prop :=
  InWindow e c.scan c.x c.y ∧ c.score = scoreAt e d c.scan c.x c.y

theorem leaf_inWindow {e : Setting K} {d : Nat} {c : Candidate K} {k : Nat} {x y : Int} (hc : IsCandidate e d c)
    (hl : Leaf e d c k x y) : InWindow e k x y := by
  obtain ⟨rfl, h1, h2, h3, h4, h5, h6⟩ := hl
  obtain ⟨⟨w1, w2, w3, w4, w5⟩, -⟩ := hc
  exact ⟨w1, w2.trans h1, h5, w4.trans h3, h6⟩

theorem leaf_score {e : Setting K} {maxDepth d : Nat} (hg : Good e maxDepth) (hd : d ≤ maxDepth) {c : Candidate K}
    (hc : IsCandidate e d c) {k : Nat} {x y : Int} (hl : Leaf e d c k x y) : scoreAt e 0 k x y ≤ c.score := by
  obtain ⟨rfl, h1, h2, h3, h4, -, -⟩ := hl
  obtain ⟨w, hs⟩ := hc
  rw [hs]
  apply hg.mono
  apply List.sum_le_sum
  intro p hp
  have := hg.bound d hd _ _ _ w p hp (x - c.x) (y - c.y) (by omega) (by omega) (by omega) (by omega)
  rwa [show c.x + (x - c.x) = x from by omega, show c.y + (y - c.y) = y from by omega] at this

theorem mem_scoreCandidates {e : Setting K} {maxDepth d : Nat} (hg : Good e maxDepth) {l : List (Nat × Int × Int)}
    {c : Candidate K} : c ∈ scoreCandidates e d l ↔
      (c.scan, c.x, c.y) ∈ l ∧ c.score = scoreAt e d c.scan c.x c.y := by
  unfold scoreCandidates
  rw [(hg.perm _).mem_iff, List.mem_map]
  constructor
  · rintro ⟨⟨k, x, y⟩, h, rfl⟩
    exact ⟨h, rfl⟩
  · rintro ⟨h, hs⟩
    refine ⟨_, h, ?_⟩
    cases c
    simp_all

theorem mem_halves {x half hi x' : Int} (hh : 0 < half) : x' ∈ halves x half hi ↔ (x' = x ∨ x' = x + half) ∧ x' ≤ hi := by
  unfold halves
  split
  · simp; omega
  · split
    · simp; omega
    · simp; omega

theorem mem_children {e : Setting K} {half : Int} (hh : 0 < half) {c : Candidate K} {k : Nat} {x y : Int} :
    (k, x, y) ∈ children e half c ↔ k = c.scan ∧ ((x = c.x ∨ x = c.x + half) ∧ x ≤ (e.bound c.scan).maxX) ∧
      ((y = c.y ∨ y = c.y + half) ∧ y ≤ (e.bound c.scan).maxY) := by
  simp only [children, List.mem_flatMap, List.mem_map, Prod.mk.injEq, mem_halves hh]
  constructor
  · rintro ⟨x', h1, y', h2, h3, rfl, rfl⟩
    exact ⟨h3.symm, h1, h2⟩
  · rintro ⟨h1, h2, h3⟩
    exact ⟨x, h2, y, h3, h1.symm, rfl, rfl⟩

theorem children_good {e : Setting K} {maxDepth d : Nat} (hg : Good e maxDepth) {c : Candidate K}
    (hc : IsCandidate e (d + 1) c) :
    (scoreCandidates e d (children e (2 ^ d) c) ≠ []) ∧
    (∀ c' ∈ scoreCandidates e d (children e (2 ^ d) c), IsCandidate e d c' ∧
      ∀ k x y, Leaf e d c' k x y → Leaf e (d + 1) c k x y) ∧
    (∀ k x y, Leaf e (d + 1) c k x y → ∃ c' ∈ scoreCandidates e d (children e (2 ^ d) c), Leaf e d c' k x y) := by
  have hpos : (0 : Int) < 2 ^ d := by positivity
  have hpow : (2 : Int) ^ (d + 1) = 2 ^ d + 2 ^ d := by ring
  obtain ⟨⟨w1, w2, w3, w4, w5⟩, -⟩ := hc
  have mk : ∀ x y, (x = c.x ∨ x = c.x + 2 ^ d) → x ≤ (e.bound c.scan).maxX → (y = c.y ∨ y = c.y + 2 ^ d) →
      y ≤ (e.bound c.scan).maxY → (⟨c.scan, x, y, scoreAt e d c.scan x y⟩ : Candidate K) ∈
        scoreCandidates e d (children e (2 ^ d) c) := by
    intro x y h1 h2 h3 h4
    rw [mem_scoreCandidates hg]
    exact ⟨(mem_children hpos).2 ⟨rfl, ⟨h1, h2⟩, h3, h4⟩, rfl⟩
  refine ⟨?_, ?_, ?_⟩
  · have := mk c.x c.y (Or.inl rfl) w3 (Or.inl rfl) w5
    intro h
    rw [h] at this
    cases this
  · intro c' hc'
    rw [mem_scoreCandidates hg] at hc'
    obtain ⟨hm, hs⟩ := hc'
    obtain ⟨e1, ⟨e2, e3⟩, e4, e5⟩ := (mem_children hpos).1 hm
    refine ⟨⟨⟨by rw [e1]; exact w1, ?_, by rw [e1]; exact e3, ?_, by rw [e1]; exact e5⟩, hs⟩, ?_⟩
    · rw [e1]; rcases e2 with h | h <;> omega
    · rw [e1]; rcases e4 with h | h <;> omega
    · rintro k x y ⟨rfl, h1, h2, h3, h4, h5, h6⟩
      refine ⟨e1.symm, ?_, ?_, ?_, ?_, h5, h6⟩
      · rcases e2 with h | h <;> omega
      · rw [hpow]; rcases e2 with h | h <;> omega
      · rcases e4 with h | h <;> omega
      · rw [hpow]; rcases e4 with h | h <;> omega
  · rintro k x y ⟨rfl, h1, h2, h3, h4, h5, h6⟩
    rw [hpow] at h2 h4
    by_cases hx : x < c.x + 2 ^ d <;> by_cases hy : y < c.y + 2 ^ d
    · exact ⟨_, mk c.x c.y (Or.inl rfl) w3 (Or.inl rfl) w5, rfl, h1, hx, h3, hy, h5, h6⟩
    · exact ⟨_, mk c.x (c.y + 2 ^ d) (Or.inl rfl) w3 (Or.inr rfl) (by omega), rfl, h1, hx, by dsimp only; omega,
        by dsimp only; omega, h5, h6⟩
    · exact ⟨_, mk (c.x + 2 ^ d) c.y (Or.inr rfl) (by omega) (Or.inl rfl) w5, rfl, by dsimp only; omega,
        by dsimp only; omega, h3, hy, h5, h6⟩
    · exact ⟨_, mk (c.x + 2 ^ d) (c.y + 2 ^ d) (Or.inr rfl) (by omega) (Or.inr rfl) (by omega), rfl,
        by dsimp only; omega, by dsimp only; omega, by dsimp only; omega, by dsimp only; omega, h5, h6⟩

/-- What a search at depth `d` returns. -/
def Answer (e : Setting K) (d : Nat) (cs : List (Candidate K)) (m : K) (r : Candidate K) : Prop :=
  (∀ c ∈ cs, ∀ k x y, Leaf e d c k x y → scoreAt e 0 k x y ≤ max r.score m) ∧
  (m < r.score → ∃ c ∈ cs, Leaf e d c r.scan r.x r.y ∧ r.score = scoreAt e 0 r.scan r.x r.y)

theorem branchLoop_spec {e : Setting K} {maxDepth d : Nat} (hg : Good e maxDepth) (hd : d + 1 ≤ maxDepth)
    {search : List (Candidate K) → K → Option (Candidate K)}
    (hs : ∀ cs m, cs ≠ [] → cs.Pairwise (fun a b => b.score ≤ a.score) → (∀ c ∈ cs, IsCandidate e d c) →
      ∃ r, search cs m = some r ∧ Answer e d cs m r) (m : K) :
    ∀ (cs : List (Candidate K)) (best : Candidate K), cs.Pairwise (fun a b => b.score ≤ a.score) →
    (∀ c ∈ cs, IsCandidate e (d + 1) c) → m ≤ best.score →
    ∃ r, branchLoop e d search m cs best = some r ∧ best.score ≤ r.score ∧
      (∀ c ∈ cs, ∀ k x y, Leaf e (d + 1) c k x y → scoreAt e 0 k x y ≤ r.score) ∧
      (r = best ∨ ∃ c ∈ cs, Leaf e (d + 1) c r.scan r.x r.y ∧ r.score = scoreAt e 0 r.scan r.x r.y) := by
  intro cs
  induction cs with
  | nil => intro best _ _ _; exact ⟨best, rfl, le_refl _, by simp, Or.inl rfl⟩
  | cons c cs ih =>
    intro best hsort hcand hm
    obtain ⟨hc, hsort'⟩ := List.pairwise_cons.1 hsort
    unfold branchLoop
    split
    · rename_i hle
      refine ⟨best, rfl, le_refl _, ?_, Or.inl rfl⟩
      intro c' hc' k x y hl
      have h1 := leaf_score hg hd (hcand c' hc') hl
      have h2 : c'.score ≤ c.score := by
        rcases List.mem_cons.1 hc' with rfl | h
        · exact le_refl _
        · exact hc c' h
      exact h1.trans (h2.trans (hle.trans hm))
    · obtain ⟨g1, g2, g3⟩ := children_good hg (hcand c (by simp))
      obtain ⟨r, h1, h2, h3⟩ := hs (scoreCandidates e d (children e (2 ^ d) c)) best.score g1 (hg.sorted _)
        (fun c' hc' => (g2 c' hc').1)
      have hnew : max r.score best.score = (if best.score < r.score then r else best).score := by
        split
        · rename_i h; exact max_eq_left h.le
        · rename_i h; exact max_eq_right (not_lt.1 h)
      have hbest : best.score ≤ (if best.score < r.score then r else best).score := by rw [← hnew]; exact le_max_right _ _
      obtain ⟨r', k1, k2, k3, k4⟩ := ih (if best.score < r.score then r else best) hsort'
        (fun c' hc' => hcand c' (by simp [hc'])) (hm.trans hbest)
      refine ⟨r', ?_, hbest.trans k2, ?_, ?_⟩
      · simp only [h1, Option.bind_eq_bind, Option.bind_some]
        exact k1
      · intro c' hc' k x y hl
        rcases List.mem_cons.1 hc' with rfl | h
        · obtain ⟨c'', hc'', hl'⟩ := g3 k x y hl
          have := h2 c'' hc'' k x y hl'
          rw [hnew] at this
          exact this.trans k2
        · exact k3 c' h k x y hl
      · rcases k4 with rfl | ⟨c', hc', hl⟩
        · split
          · rename_i hlt
            obtain ⟨c', hc', hl, hsc⟩ := h3 hlt
            exact Or.inr ⟨c, by simp, (g2 c' hc').2 _ _ _ hl, hsc⟩
          · exact Or.inl rfl
        · exact Or.inr ⟨c', by simp [hc'], hl⟩

theorem branchAndBound_spec {e : Setting K} {maxDepth : Nat} (hg : Good e maxDepth) : ∀ (d : Nat), d ≤ maxDepth →
    ∀ cs m, cs ≠ [] → cs.Pairwise (fun a b => b.score ≤ a.score) → (∀ c ∈ cs, IsCandidate e d c) →
      ∃ r, branchAndBound e d cs m = some r ∧ Answer e d cs m r := by
  intro d
  induction d with
  | zero =>
    intro _ cs m hne hsort hcand
    cases cs with
    | nil => exact absurd rfl hne
    | cons c cs =>
      refine ⟨c, rfl, ?_, ?_⟩
      · intro c' hc' k x y hl
        have h1 := leaf_score hg (Nat.zero_le _) (hcand c' hc') hl
        have h2 : c'.score ≤ c.score := by
          rcases List.mem_cons.1 hc' with rfl | h
          · exact le_refl _
          · exact (List.pairwise_cons.1 hsort).1 c' h
        exact (h1.trans h2).trans (le_max_left _ _)
      · intro _
        obtain ⟨⟨w1, w2, w3, w4, w5⟩, hs⟩ := hcand c (by simp)
        exact ⟨c, by simp, ⟨rfl, le_refl _, by simp, le_refl _, by simp, w3, w5⟩, hs⟩
  | succ d ih =>
    intro hd cs m _ hsort hcand
    obtain ⟨r, h1, h2, h3, h4⟩ := branchLoop_spec hg hd (ih (by omega)) m cs ⟨0, 0, 0, m⟩ hsort hcand (le_refl _)
    refine ⟨r, h1, ?_, ?_⟩
    · intro c hc k x y hl
      exact (h3 c hc k x y hl).trans (le_max_left _ _)
    · intro hlt
      rcases h4 with rfl | h4
      · exact absurd hlt (lt_irrefl _)
      · exact h4

/-! ### The candidates to start with -/

theorem steps_eq {step hi : Int} (hs : 0 < step) : ∀ (k : Nat) (x : Int), hi - x + 1 ≤ k →
    steps step hi k x = (List.range ((hi - x + step) / step).toNat).map (fun i : Nat => x + (i : Int) * step) := by
  have hz : ∀ x : Int, hi < x → ((hi - x + step) / step).toNat = 0 := by
    intro x hx
    rw [Int.toNat_eq_zero]
    by_contra h
    have h1 : 1 ≤ (hi - x + step) / step := by omega
    rw [Int.le_ediv_iff_mul_le hs] at h1
    omega
  intro k
  induction k with
  | zero =>
    intro x hx
    rw [hz x (by omega)]
    rfl
  | succ k ih =>
    intro x hx
    unfold steps
    split
    · rename_i hle
      have h0 : 0 ≤ (hi - x) / step := Int.ediv_nonneg (by omega) hs.le
      have hc : ((hi - x + step) / step).toNat = ((hi - (x + step) + step) / step).toNat + 1 := by
        have := Int.add_mul_ediv_right (hi - x) 1 hs.ne'
        rw [one_mul] at this
        rw [show hi - (x + step) + step = hi - x from by omega, this]
        omega
      rw [hc, List.range_succ_eq_map, List.map_cons, List.map_map, ih (x + step) (by omega)]
      congr 1
      · simp
      · apply List.map_congr_left
        intro i _
        simp only [Function.comp]
        push_cast
        ring
    · rename_i hle
      rw [hz x (by omega)]
      rfl

theorem lowestOffsets_eq {step lo hi : Int} (hs : 0 < step) :
    lowestOffsets step lo hi = (List.range ((hi - lo + step) / step).toNat).map (fun i : Nat => lo + (i : Int) * step) :=
  steps_eq hs _ _ (by omega)

theorem mem_lowestOffsets {step lo hi x : Int} (hs : 0 < step) (h : x ∈ lowestOffsets step lo hi) : lo ≤ x ∧ x ≤ hi := by
  rw [lowestOffsets_eq hs, List.mem_map] at h
  obtain ⟨i, hi', rfl⟩ := h
  rw [List.mem_range] at hi'
  have h1 : (i : Int) + 1 ≤ (hi - lo + step) / step := by omega
  rw [Int.le_ediv_iff_mul_le hs, add_mul, one_mul] at h1
  have h2 : 0 ≤ (i : Int) * step := by positivity
  omega

theorem lowestOffsets_cover {step lo hi x : Int} (hs : 0 < step) (h1 : lo ≤ x) (h2 : x ≤ hi) :
    ∃ x' ∈ lowestOffsets step lo hi, x' ≤ x ∧ x < x' + step := by
  have hd0 : 0 ≤ (x - lo) / step := Int.ediv_nonneg (by omega) hs.le
  have e1 : (x - lo) / step * step ≤ x - lo := Int.ediv_mul_le _ hs.ne'
  have e2 : x - lo < ((x - lo) / step + 1) * step := Int.lt_ediv_add_one_mul_self _ hs
  rw [add_mul, one_mul] at e2
  refine ⟨lo + (x - lo) / step * step, ?_, by omega, by omega⟩
  rw [lowestOffsets_eq hs, List.mem_map]
  refine ⟨((x - lo) / step).toNat, ?_, by rw [Int.toNat_of_nonneg hd0]⟩
  rw [List.mem_range]
  have : (x - lo) / step + 1 ≤ (hi - lo + step) / step := by
    rw [Int.le_ediv_iff_mul_le hs, add_mul, one_mul]
    omega
  omega

theorem lowestOfScan_length {step : Int} (hs : 0 < step) {k : Nat} {b : Bounds} (hx : b.minX ≤ b.maxX)
    (hy : b.minY ≤ b.maxY) : ((lowestOfScan step k b).length : Int) = expectedOfScan step b := by
  have h1 : 0 ≤ (b.maxX - b.minX + step) / step := Int.ediv_nonneg (by omega) hs.le
  have h2 : 0 ≤ (b.maxY - b.minY + step) / step := Int.ediv_nonneg (by omega) hs.le
  unfold lowestOfScan expectedOfScan
  rw [Int.tdiv_eq_ediv_of_nonneg (by omega), Int.tdiv_eq_ediv_of_nonneg (by omega), List.length_flatMap]
  simp only [List.length_map, lowestOffsets_eq hs, List.length_range, List.map_map, Function.comp_def]
  rw [List.map_const', List.sum_replicate, List.length_range, nsmul_eq_mul, Nat.cast_id, Nat.cast_mul, Int.toNat_of_nonneg h1,
    Int.toNat_of_nonneg h2]

theorem cast_sum (l : List Nat) : ((l.sum : Nat) : Int) = (l.map (fun n : Nat => (n : Int))).sum := by
  induction l with
  | nil => rfl
  | cons a l ih => simp [ih]

theorem generateLowest_eq {e : Setting K} {maxDepth : Nat} (hg : Good e maxDepth) : generateLowest e maxDepth =
    some ((List.range e.scans.length).flatMap (fun k => lowestOfScan (2 ^ maxDepth) k (e.bound k))) := by
  unfold generateLowest
  dsimp only
  rw [if_pos]
  rw [List.length_flatMap, cast_sum, List.map_map]
  congr 1
  apply List.map_congr_left
  intro k hk
  rw [List.mem_range] at hk
  obtain ⟨h1, h2⟩ := hg.window k hk
  exact lowestOfScan_length (by positivity) h1 h2

/-- C38 for the search itself: it completes; it reports no match exactly if no pose of the window scores above
the minimum, and otherwise a pose of the window with the highest score. -/
theorem search_optimal {e : Setting K} {maxDepth : Nat} (hg : Good e maxDepth) (minScore : K) :
    ∃ result, search e maxDepth minScore = some result ∧
      (result = none → ∀ k x y, InWindow e k x y → scoreAt e 0 k x y ≤ minScore) ∧
      (∀ c, result = some c → InWindow e c.scan c.x c.y ∧ c.score = scoreAt e 0 c.scan c.x c.y ∧ minScore < c.score ∧
        ∀ k x y, InWindow e k x y → scoreAt e 0 k x y ≤ c.score) := by
  have hpos : (0 : Int) < 2 ^ maxDepth := by positivity
  have hmem : ∀ k x y, (k, x, y) ∈ (List.range e.scans.length).flatMap
      (fun k => lowestOfScan (2 ^ maxDepth) k (e.bound k)) ↔ k < e.scans.length ∧
      x ∈ lowestOffsets (2 ^ maxDepth) (e.bound k).minX (e.bound k).maxX ∧
      y ∈ lowestOffsets (2 ^ maxDepth) (e.bound k).minY (e.bound k).maxY := by
    intro k x y
    simp only [List.mem_flatMap, List.mem_range, lowestOfScan, List.mem_map, Prod.mk.injEq]
    constructor
    · rintro ⟨k', h1, x', h2, y', h3, rfl, rfl, rfl⟩
      exact ⟨h1, h2, h3⟩
    · rintro ⟨h1, h2, h3⟩
      exact ⟨k, h1, x, h2, y, h3, rfl, rfl, rfl⟩
  generalize hl : (List.range e.scans.length).flatMap (fun k => lowestOfScan (2 ^ maxDepth) k (e.bound k)) = l at hmem
  have hgen := generateLowest_eq hg
  rw [hl] at hgen
  have hcand : ∀ c ∈ scoreCandidates e maxDepth l, IsCandidate e maxDepth c := by
    intro c hc
    obtain ⟨h1, h2⟩ := (mem_scoreCandidates hg).1 hc
    obtain ⟨h3, h4, h5⟩ := (hmem _ _ _).1 h1
    obtain ⟨x1, x2⟩ := mem_lowestOffsets hpos h4
    obtain ⟨y1, y2⟩ := mem_lowestOffsets hpos h5
    exact ⟨⟨h3, x1, x2, y1, y2⟩, h2⟩
  have hcover : ∀ k x y, InWindow e k x y → ∃ c ∈ scoreCandidates e maxDepth l, Leaf e maxDepth c k x y := by
    rintro k x y ⟨w1, w2, w3, w4, w5⟩
    obtain ⟨x', hx, x1, x2⟩ := lowestOffsets_cover hpos w2 w3
    obtain ⟨y', hy, y1, y2⟩ := lowestOffsets_cover hpos w4 w5
    refine ⟨⟨k, x', y', scoreAt e maxDepth k x' y'⟩, ?_, rfl, x1, x2, y1, y2, w3, w5⟩
    rw [mem_scoreCandidates hg]
    exact ⟨(hmem _ _ _).2 ⟨w1, hx, hy⟩, rfl⟩
  have hne : scoreCandidates e maxDepth l ≠ [] := by
    have h0 : 0 < e.scans.length := List.length_pos_iff.2 hg.nonempty
    obtain ⟨h1, h2⟩ := hg.window 0 h0
    obtain ⟨c, hc, -⟩ := hcover 0 _ _ ⟨h0, le_refl _, h1, le_refl _, h2⟩
    intro h
    rw [h] at hc
    cases hc
  obtain ⟨r, h1, h2, h3⟩ := branchAndBound_spec hg maxDepth (le_refl _) _ minScore hne (hg.sorted _) hcand
  refine ⟨if r.score > minScore then some r else none, ?_, ?_, ?_⟩
  · simp [search, hgen, h1]
  · intro hn k x y hw
    have hle : ¬ r.score > minScore := by
      intro h
      rw [if_pos h] at hn
      cases hn
    obtain ⟨c, hc, hl⟩ := hcover k x y hw
    have := h2 c hc k x y hl
    rwa [max_eq_right (not_lt.1 hle)] at this
  · intro c hc
    split at hc
    · rename_i hgt
      obtain rfl := Option.some.inj hc
      obtain ⟨c, hc, hl, hs⟩ := h3 hgt
      refine ⟨leaf_inWindow (hcand c hc) hl, hs, hgt, ?_⟩
      intro k x y hw
      obtain ⟨c, hc, hl⟩ := hcover k x y hw
      have := h2 c hc k x y hl
      rwa [max_eq_left (le_of_lt hgt)] at this
    · cases hc

/-! ### The matcher of a grid -/

theorem shrinkLow_spec (l : List Int) : shrinkLow l ≤ 0 ∧ ∀ p ∈ l, shrinkLow l ≤ -p := by
  have key : ∀ (l : List Int) (b : Int), l.foldl (fun b p => min b (-p)) b ≤ b ∧
      ∀ p ∈ l, l.foldl (fun b p => min b (-p)) b ≤ -p := by
    intro l
    induction l with
    | nil => intro b; simp
    | cons q l ih =>
      intro b
      obtain ⟨h1, h2⟩ := ih (min b (-q))
      refine ⟨h1.trans (min_le_left _ _), ?_⟩
      intro p hp
      rcases List.mem_cons.1 hp with rfl | hp
      · exact h1.trans (min_le_right _ _)
      · exact h2 p hp
  exact key l 0

theorem shrinkHigh_spec (n : Int) (l : List Int) : 0 ≤ shrinkHigh n l ∧ ∀ p ∈ l, n - 1 - p ≤ shrinkHigh n l := by
  have key : ∀ (l : List Int) (b : Int), b ≤ l.foldl (fun b p => max b (n - 1 - p)) b ∧
      ∀ p ∈ l, n - 1 - p ≤ l.foldl (fun b p => max b (n - 1 - p)) b := by
    intro l
    induction l with
    | nil => intro b; simp
    | cons q l ih =>
      intro b
      obtain ⟨h1, h2⟩ := ih (max b (n - 1 - q))
      refine ⟨(le_max_left _ _).trans h1, ?_⟩
      intro p hp
      rcases List.mem_cons.1 hp with rfl | hp
      · exact (le_max_right _ _).trans h1
      · exact h2 p hp
  exact key l 0

/-- The score of a pose, computed from the cells that the points fall into. -/
def poseScore (g : CostGrid) (toScore : Nat → Int → K) (scan : Scan) (x y : Int) : K :=
  toScore scan.length ((scan.map (fun p => cellScore g (p.1 + x) (p.2 + y))).sum)

/-- The pose with offsets `(x, y)` is in the window `b`. -/
def Within (b : Bounds) (x y : Int) : Prop := b.minX ≤ x ∧ x ≤ b.maxX ∧ b.minY ≤ y ∧ y ≤ b.maxY

instance (b : Bounds) (x y : Int) : Decidable (Within b x y) := by unfold Within; infer_instance

/-- The sizes for which no `int` overflows. -/
structure Sizes (g : CostGrid) (depth : Nat) (scans : List Scan) (bounds : List Bounds) : Prop where
  nx : g.nx ≤ 2 ^ 28
  ny : g.ny ≤ 2 ^ 28
  depth : 2 ^ (depth - 1) ≤ 2 ^ 28
  points : ∀ s ∈ scans, ∀ p ∈ s, -2 ^ 28 ≤ p.1 ∧ p.1 ≤ 2 ^ 28 ∧ -2 ^ 28 ≤ p.2 ∧ p.2 ≤ 2 ^ 28
  bounds : ∀ b ∈ bounds, -2 ^ 28 ≤ b.minX ∧ b.maxX ≤ 2 ^ 28 ∧ -2 ^ 28 ≤ b.minY ∧ b.maxY ≤ 2 ^ 28

theorem stack_spec {g : CostGrid} {depth : Nat} (h : g.Ok) (hd : 1 ≤ depth) :
    ∃ stack, precomputeStack g depth = some stack ∧ ∀ d, d < depth → ∃ p, stack[d]? = some p ∧
      precompute g (2 ^ d) = some p := by
  have ht : (tabulate (fun i => precompute g (2 ^ i)) depth 0).isSome := by
    apply tabulate_total
    intro i _
    exact precompute_completes h Nat.one_le_two_pow
  obtain ⟨stack, hs⟩ := Option.isSome_iff_exists.1 ht
  refine ⟨stack, by simp [precomputeStack, hd, hs], ?_⟩
  intro d hd
  obtain ⟨-, h1⟩ := tabulate_spec hs
  obtain ⟨p, h2, h3⟩ := h1 d hd
  exact ⟨p, h2, by simpa using h3⟩

theorem fine_value {g : CostGrid} (h : g.Ok) {p : Precomputed} (hp : precompute g (2 ^ 0) = some p)
    (hnx : g.nx ≤ 2 ^ 28) (hny : g.ny ≤ 2 ^ 28) {x y : Int} (hx1 : -2147483648 ≤ x) (hx2 : x < 2147483648)
    (hy1 : -2147483648 ≤ y) (hy2 : y < 2147483648) : getValue p x y = cellScore g x y := by
  obtain ⟨dx, dy, d1, d2, d3, d4, he⟩ := (precomputed_is_window_maximum h (w := 2 ^ 0) (by norm_num) hp (by push_cast; omega)
    (by push_cast; omega) (x := x) (y := y) (by push_cast; omega) (by push_cast; omega) (by push_cast; omega)
    (by push_cast; omega)).1
  norm_num at d2 d4
  rw [he, show dx = 0 from by omega, show dy = 0 from by omega, add_zero, add_zero]

theorem sum_zero_of_outside {l : Scan} {f : Int × Int → Int} (h : ∀ p ∈ l, f p = 0) : (l.map f).sum = 0 := by
  induction l with
  | nil => rfl
  | cons p l ih =>
    rw [List.map_cons, List.sum_cons, h p (by simp), ih (fun q hq => h q (by simp [hq]))]
    rfl

theorem sum_nonneg_of {l : Scan} {f : Int × Int → Int} (h : ∀ p ∈ l, 0 ≤ f p) : 0 ≤ (l.map f).sum := by
  induction l with
  | nil => simp
  | cons p l ih =>
    rw [List.map_cons, List.sum_cons]
    have := h p (by simp)
    have := ih (fun q hq => h q (by simp [hq]))
    omega

/-- C38: the matcher completes; it reports a match exactly if some pose of the search window scores above the
minimum, and then a pose of the window with the highest score of all, together with that score.  The scores are
those of the cells of the map, and the window is that before it is shrunk to the map. -/
theorem match_optimal {g : CostGrid} {depth : Nat} {toScore : Nat → Int → K}
    {sort : List (Candidate K) → List (Candidate K)} {scans : List Scan} {bounds : List Bounds} {minScore : K}
    (h : g.Ok) (hd : 1 ≤ depth) (hmono : ∀ n a b, a ≤ b → toScore n a ≤ toScore n b)
    (hperm : ∀ l, (sort l).Perm l) (hsorted : ∀ l, (sort l).Pairwise (fun a b => b.score ≤ a.score))
    (hscans : scans ≠ []) (hlen : bounds.length = scans.length) (hb : ∀ b ∈ bounds, Within b 0 0)
    (hsize : Sizes g depth scans bounds) :
    ∃ result, matchWith g depth toScore sort scans bounds minScore = some result ∧
      (result = none ↔ ∀ (k : Nat) s b x y, scans[k]? = some s → bounds[k]? = some b → Within b x y →
        poseScore g toScore s x y ≤ minScore) ∧
      (∀ c, result = some c → ∃ s b, scans[c.scan]? = some s ∧ bounds[c.scan]? = some b ∧ Within b c.x c.y ∧
        c.score = poseScore g toScore s c.x c.y ∧ minScore < c.score ∧
        ∀ (k : Nat) s b x y, scans[k]? = some s → bounds[k]? = some b → Within b x y → poseScore g toScore s x y ≤ c.score) := by
  obtain ⟨stack, hstack, hget⟩ := stack_spec h hd
  let e : Setting K :=
    { value := fun d x y => getValue (stack.getD d ⟨1, 0, 0, []⟩) x y
      toScore := toScore
      scans := scans
      bounds := List.zipWith (shrinkToFit g.nx g.ny) bounds scans
      sort := sort }
  have hsb : ∀ k, k < scans.length → ∃ s b, scans[k]? = some s ∧ bounds[k]? = some b ∧ e.scan k = s ∧
      e.bound k = shrinkToFit g.nx g.ny b s := by
    intro k hk
    refine ⟨scans[k], bounds[k]'(by omega), List.getElem?_eq_getElem hk, List.getElem?_eq_getElem (by omega), ?_, ?_⟩
    · simp [e, Setting.scan, List.getD, List.getElem?_eq_getElem hk]
    · simp [e, Setting.bound, List.getD, List.getElem?_zipWith, List.getElem?_eq_getElem hk,
        List.getElem?_eq_getElem (show k < bounds.length by omega)]
  have origin : ∀ s b, b ∈ bounds → Within (shrinkToFit g.nx g.ny b s) 0 0 := by
    intro s b hbm
    obtain ⟨h1, h2, h3, h4⟩ := hb b hbm
    have l1 := (shrinkLow_spec (s.map (·.1))).1
    have l2 := (shrinkLow_spec (s.map (·.2))).1
    have l3 := (shrinkHigh_spec g.nx (s.map (·.1))).1
    have l4 := (shrinkHigh_spec g.ny (s.map (·.2))).1
    exact ⟨max_le h1 l1, le_min h2 l3, max_le h3 l2, le_min h4 l4⟩
  have inner : ∀ {b : Bounds} {s : Scan} {x y : Int}, Within (shrinkToFit g.nx g.ny b s) x y → Within b x y := by
    rintro b s x y ⟨h1, h2, h3, h4⟩
    exact ⟨(le_max_left _ _).trans h1, h2.trans (min_le_left _ _), (le_max_left _ _).trans h3, h4.trans (min_le_left _ _)⟩
  have hpow : ∀ d, d ≤ depth - 1 → (2 : Int) ^ d ≤ 2 ^ 28 ∧ (1 : Int) ≤ 2 ^ d := by
    intro d hd'
    have h1 : (2 : Nat) ^ d ≤ 2 ^ (depth - 1) := Nat.pow_le_pow_right (by norm_num) hd'
    have h2 := hsize.depth
    have h3 : (1 : Nat) ≤ 2 ^ d := Nat.one_le_two_pow
    have h4 : (2 : Nat) ^ d ≤ 2 ^ 28 := h1.trans h2
    exact ⟨by exact_mod_cast h4, by exact_mod_cast h3⟩
  have hval0 : ∀ (k : Nat) s b x y, scans[k]? = some s → bounds[k]? = some b → Within b x y → ∀ p ∈ s, ∀ dx dy : Int,
      0 ≤ dx → dx ≤ 2 ^ 28 → 0 ≤ dy → dy ≤ 2 ^ 28 →
      e.value 0 (p.1 + (x + dx)) (p.2 + (y + dy)) = cellScore g (p.1 + (x + dx)) (p.2 + (y + dy)) := by
    intro k s b x y hs hb' hw p hp dx dy d1 d2 d3 d4
    obtain ⟨p0, hp0, hp0'⟩ := hget 0 (by omega)
    obtain ⟨q1, q2, q3, q4⟩ := hsize.points s (List.mem_of_getElem? hs) p hp
    obtain ⟨r1, r2, r3, r4⟩ := hsize.bounds b (List.mem_of_getElem? hb')
    obtain ⟨w1, w2, w3, w4⟩ := hw
    have : e.value 0 = getValue p0 := by
      funext a c
      simp [e, List.getD, hp0]
    rw [this]
    norm_num at q1 q2 q3 q4 r1 r2 r3 r4 d2 d4
    exact fine_value h hp0' hsize.nx hsize.ny (by omega) (by omega) (by omega) (by omega)
  have hscore : ∀ (k : Nat) s b x y, scans[k]? = some s → bounds[k]? = some b → Within b x y →
      scoreAt e 0 k x y = poseScore g toScore s x y := by
    intro k s b x y hs hb' hw
    have hk : k < scans.length := (List.getElem?_eq_some_iff.1 hs).1
    obtain ⟨s', b', h1, h2, h3, h4⟩ := hsb k hk
    rw [hs] at h1
    obtain rfl := Option.some.inj h1
    unfold scoreAt poseScore
    rw [h3]
    show toScore s.length _ = toScore s.length _
    congr 2
    apply List.map_congr_left
    intro p hp
    have := hval0 k s b x y hs hb' hw p hp 0 0 (le_refl _) (by norm_num) (le_refl _) (by norm_num)
    simpa using this
  have hg : Good e (depth - 1) := by
    refine ⟨hmono, hperm, hsorted, ?_, hscans, ?_⟩
    · rintro d hd' k x y ⟨hk, w1, w2, w3, w4⟩ p hp dx dy d1 d2 d3 d4
      obtain ⟨s, b, hs, hb', h3, h4⟩ := hsb k hk
      have hw : Within (shrinkToFit g.nx g.ny b s) x y := by rw [← h4]; exact ⟨w1, w2, w3, w4⟩
      have hw := inner hw
      rw [h3] at hp
      obtain ⟨e1, e2⟩ := hpow d hd'
      rw [hval0 k s b x y hs hb' hw p hp dx dy d1 (by omega) d3 (by omega)]
      obtain ⟨pd, hpd, hpd'⟩ := hget d (by omega)
      have : e.value d = getValue pd := by
        funext a c
        simp [e, List.getD, hpd]
      rw [this]
      obtain ⟨q1, q2, q3, q4⟩ := hsize.points s (List.mem_of_getElem? hs) p hp
      obtain ⟨r1, r2, r3, r4⟩ := hsize.bounds b (List.mem_of_getElem? hb')
      obtain ⟨w1, w2, w3, w4⟩ := hw
      have n1 := hsize.nx
      have n2 := hsize.ny
      norm_num at q1 q2 q3 q4 r1 r2 r3 r4 d2 d4 e1 n1 n2
      apply (precomputed_is_window_maximum h Nat.one_le_two_pow hpd' (by push_cast; omega) (by push_cast; omega)
        (by push_cast; omega) (by push_cast; omega) (by push_cast; omega) (by push_cast; omega)).2
      exact ⟨dx, dy, d1, by push_cast; exact d2, d3, by push_cast; exact d4, by rw [add_assoc, add_assoc]⟩
    · intro k hk
      obtain ⟨s, b, hs, hb', h3, h4⟩ := hsb k hk
      obtain ⟨w1, w2, w3, w4⟩ := origin s b (List.mem_of_getElem? hb')
      rw [h4]
      exact ⟨w1.trans w2, w3.trans w4⟩
  obtain ⟨result, hres, hnone, hsome⟩ := search_optimal hg minScore
  -- Poses outside of the window that has been shrunk do not score higher than the pose without offset.
  have hcmp : ∀ (k : Nat) s b x y, scans[k]? = some s → bounds[k]? = some b → Within b x y →
      ∃ x' y', InWindow e k x' y' ∧ poseScore g toScore s x y ≤ scoreAt e 0 k x' y' := by
    intro k s b x y hs hb' hw
    have hk : k < scans.length := (List.getElem?_eq_some_iff.1 hs).1
    obtain ⟨s', b', h1, h2, h3, h4⟩ := hsb k hk
    rw [hs] at h1
    rw [hb'] at h2
    obtain rfl := Option.some.inj h1
    obtain rfl := Option.some.inj h2
    by_cases hin : Within (shrinkToFit g.nx g.ny b s) x y
    · refine ⟨x, y, ⟨hk, by rw [h4]; exact hin⟩, ?_⟩
      rw [hscore k s b x y hs hb' hw]
    · have ho := origin s b (List.mem_of_getElem? hb')
      refine ⟨0, 0, ⟨hk, by rw [h4]; exact ho⟩, ?_⟩
      rw [hscore k s b 0 0 hs hb' (inner ho)]
      unfold poseScore
      apply hmono
      rw [sum_zero_of_outside]
      · exact sum_nonneg_of (fun p _ => (cellScore_nonneg h _ _).1)
      · intro p hp
        unfold cellScore
        rw [if_neg]
        rintro ⟨c1, c2, c3, c4⟩
        apply hin
        obtain ⟨w1, w2, w3, w4⟩ := hw
        have l1 := (shrinkLow_spec (s.map (·.1)))
        have l2 := (shrinkLow_spec (s.map (·.2)))
        have l3 := (shrinkHigh_spec g.nx (s.map (·.1)))
        have l4 := (shrinkHigh_spec g.ny (s.map (·.2)))
        have hp1 : p.1 ∈ s.map (·.1) := List.mem_map_of_mem hp
        have hp2 : p.2 ∈ s.map (·.2) := List.mem_map_of_mem hp
        have m1 := l1.2 _ hp1
        have m2 := l2.2 _ hp2
        have m3 := l3.2 _ hp1
        have m4 := l4.2 _ hp2
        exact ⟨max_le w1 (by omega), le_min w2 (by omega), max_le w3 (by omega), le_min w4 (by omega)⟩
  have hsome' : ∀ c, result = some c → ∃ s b, scans[c.scan]? = some s ∧ bounds[c.scan]? = some b ∧ Within b c.x c.y ∧
      c.score = poseScore g toScore s c.x c.y ∧ minScore < c.score ∧
      ∀ (k : Nat) s b x y, scans[k]? = some s → bounds[k]? = some b → Within b x y → poseScore g toScore s x y ≤ c.score := by
    intro c hc
    obtain ⟨⟨hk, w⟩, h2, h3, h4⟩ := hsome c hc
    obtain ⟨s, b, hs, hb', h5, h6⟩ := hsb c.scan hk
    rw [h6] at w
    refine ⟨s, b, hs, hb', inner w, ?_, h3, ?_⟩
    · rw [h2, hscore c.scan s b c.x c.y hs hb' (inner w)]
    · intro k s b x y hs hb' hw
      obtain ⟨x', y', i1, i2⟩ := hcmp k s b x y hs hb' hw
      exact i2.trans (h4 k x' y' i1)
  refine ⟨result, ?_, ⟨?_, ?_⟩, hsome'⟩
  · unfold matchWith
    rw [hstack]
    simp only [Option.bind_eq_bind, Option.bind_some, hlen, guard, if_true]
    exact hres
  · intro hn k s b x y hs hb' hw
    obtain ⟨x', y', i1, i2⟩ := hcmp k s b x y hs hb' hw
    exact i2.trans (hnone hn k x' y' i1)
  · intro hall
    cases hr : result with
    | none => rfl
    | some c =>
      obtain ⟨s, b, hs, hb', hw, h2, h3, -⟩ := hsome' c hr
      have := hall c.scan s b c.x c.y hs hb' hw
      rw [← h2] at this
      exact absurd h3 (not_lt.2 this)

/-- Any sort by score will do; this one inserts. -/
def sortByScore (l : List (Candidate Int)) : List (Candidate Int) := l.insertionSort (fun a b => b.score ≤ a.score)

/-- One point in the middle of a window of 5 x 5 poses on the small map, at two orientations: the best pose puts
the point into the cell (2, 0). -/
example : matchWith smallGrid 2 (fun _ s => s) sortByScore [[(0, 0)], [(0, 1)]] [⟨-2, 2, -2, 2⟩, ⟨-2, 2, -2, 2⟩] 200 =
    some (some ⟨0, 2, 0, 255⟩) := by decide +kernel

/-- The same with a minimum that nothing exceeds. -/
example : matchWith smallGrid 2 (fun _ s => s) sortByScore [[(0, 0)], [(0, 1)]] [⟨-2, 2, -2, 2⟩, ⟨-2, 2, -2, 2⟩] 255 =
    some none := by decide +kernel

/-- The hypotheses of the theorem hold there. -/
example : ∃ result, matchWith smallGrid 2 (fun _ s => s) sortByScore [[(0, 0)], [(0, 1)]]
    [⟨-2, 2, -2, 2⟩, ⟨-2, 2, -2, 2⟩] 200 = some result := by
  have hs : ∀ l, (sortByScore l).Pairwise (fun a b => b.score ≤ a.score) := by
    intro l
    haveI : Std.Total (fun a b : Candidate Int => b.score ≤ a.score) := ⟨fun a b => le_total _ _⟩
    haveI : IsTrans (Candidate Int) (fun a b => b.score ≤ a.score) := ⟨fun a b c h1 h2 => h2.trans h1⟩
    exact List.pairwise_insertionSort _ l
  obtain ⟨r, hr, -⟩ := match_optimal (toScore := fun _ s => s) (minScore := 200) smallGrid_ok (depth := 2) (by decide)
    (fun _ _ _ h => h) (fun l => List.perm_insertionSort _ l) hs (scans := [[(0, 0)], [(0, 1)]])
    (bounds := [⟨-2, 2, -2, 2⟩, ⟨-2, 2, -2, 2⟩]) (by simp) rfl (by decide)
    ⟨by decide, by decide, by decide, by decide, by decide⟩
  exact ⟨r, hr⟩

end Verif.FastCorrelative
