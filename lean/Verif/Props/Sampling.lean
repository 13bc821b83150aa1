import Verif.Sampling
import Mathlib.Tactic.Ring
import Mathlib.Tactic.Linarith
import Mathlib.Tactic.Positivity
import Mathlib.Tactic.NormNum
import Mathlib.Tactic.FieldSimp
import Mathlib.Data.List.Induction

/-! # C30 (sampler) and C31 (motion filter) -/

namespace Verif.Sampler

/-- How many answers were "yes". -/
def yes (bs : List Bool) : Nat := (bs.filter id).length

theorem pulses_invariant (r : ℚ) (h0 : 0 ≤ r) (h1 : r ≤ 1) (k : Nat) :
    (pulses k ⟨r, 0, 0⟩).1 = ⟨r, k, ⌈r * k⌉₊⟩ ∧ yes (pulses k ⟨r, 0, 0⟩).2 = ⌈r * k⌉₊ := by
  induction k with
  | zero => simp [pulses, yes]
  | succ k ih =>
    obtain ⟨ih1, ih2⟩ := ih
    simp only [pulses, ih1, pulse]
    have hk : (0 : ℚ) < ((k + 1 : ℕ) : ℚ) := by positivity
    have hx : (0 : ℚ) ≤ r * k := by positivity
    have hc := Nat.le_ceil (r * (k : ℚ))
    have hc2 := Nat.ceil_lt_add_one hx
    have e : r * ((k + 1 : ℕ) : ℚ) = r * k + r := by push_cast; ring
    by_cases h : (⌈r * (k : ℚ)⌉₊ : ℚ) / ((k + 1 : ℕ) : ℚ) < r
    · rw [if_pos h]
      rw [div_lt_iff₀ hk, e] at h
      have hceil : ⌈r * ((k + 1 : ℕ) : ℚ)⌉₊ = ⌈r * (k : ℚ)⌉₊ + 1 := by
        rw [e]
        apply le_antisymm
        · apply Nat.ceil_le.2; push_cast; linarith
        · exact Nat.lt_ceil.2 h
      constructor
      · rw [hceil]
      · simp only [yes, List.filter_append, List.length_append] at ih2 ⊢
        rw [ih2, hceil]; simp
    · rw [if_neg h]
      rw [div_lt_iff₀ hk, e, not_lt] at h
      have hceil : ⌈r * ((k + 1 : ℕ) : ℚ)⌉₊ = ⌈r * (k : ℚ)⌉₊ := by
        rw [e]
        apply le_antisymm
        · exact Nat.ceil_le.2 h
        · exact Nat.ceil_le_ceil (by linarith)
      constructor
      · rw [hceil]
      · simp only [yes, List.filter_append, List.length_append] at ih2 ⊢
        rw [ih2, hceil]; simp

/-- **C30.** A sampler that could be constructed answers "yes" exactly `⌈r * k⌉` times in the first `k`
pulses, for every `k`. -/
theorem sampler_ratio (r : ℚ) (s : State) (hs : mk r = some s) (k : Nat) :
    yes (pulses k s).2 = ⌈r * k⌉₊ ∧ (pulses k s).2.length = k := by
  unfold mk at hs
  split at hs
  · rename_i h
    cases hs
    refine ⟨(pulses_invariant r h.1 h.2 k).2, ?_⟩
    induction k with
    | zero => rfl
    | succ k ih => simp [pulses, ih]
  · cases hs

/-- **C30**, construction succeeds exactly for ratios in `[0, 1]`. -/
theorem sampler_constructible (r : ℚ) : (mk r).isSome ↔ 0 ≤ r ∧ r ≤ 1 := by
  unfold mk; split <;> simp_all

/-- **C30**, extremes: ratio one samples everything, ratio zero nothing. -/
theorem sampler_extremes (s : State) (k : Nat) :
    (mk 1 = some s → (pulses k s).2 = List.replicate k true) ∧
    (mk 0 = some s → (pulses k s).2 = List.replicate k false) := by
  have aux : ∀ bs : List Bool, yes bs = bs.length → bs = List.replicate bs.length true := by
    intro bs h
    apply List.eq_replicate_iff.2 ⟨rfl, ?_⟩
    exact fun b hb => List.length_filter_eq_length_iff.1 h b hb
  have aux0 : ∀ bs : List Bool, yes bs = 0 → bs = List.replicate bs.length false := by
    intro bs h
    apply List.eq_replicate_iff.2 ⟨rfl, ?_⟩
    intro b hb
    by_contra hne
    have : b ∈ bs.filter id := List.mem_filter.2 ⟨hb, by simpa using hne⟩
    rw [yes, List.length_eq_zero_iff] at h
    rw [h] at this; cases this
  constructor
  · intro hs
    have ⟨h, hl⟩ := sampler_ratio 1 s hs k
    have := aux _ (by rw [h, hl]; simp)
    rwa [hl] at this
  · intro hs
    have ⟨h, hl⟩ := sampler_ratio 0 s hs k
    have := aux0 _ (by rw [h]; simp)
    rwa [hl] at this

/-- Non-vacuity: ratio 2/5. -/
example : mk (2 / 5) = some ⟨2 / 5, 0, 0⟩ ∧
    (pulses 6 ⟨2 / 5, 0, 0⟩).2 = [true, false, true, false, false, true] := by
  constructor
  · norm_num [mk]
  · norm_num [pulses, pulse]

end Verif.Sampler

namespace Verif.MotionFilter

variable {P S : Type} [LE S] [DecidableLE S]

/-! ## Specification: a pose is compared with the last one that was let through -/

/-- The last input answered with `false` ("different") in a history. -/
def lastAccepted (h : List ((Int × P) × Bool)) : Option (Int × P) :=
  ((h.filter (fun e => !e.2)).getLast?).map Prod.fst

/-- `x` is within all three limits of `y`. -/
def Within (dist angle : P → P → S) (o : Options S) (x y : Int × P) : Prop :=
  x.1 - y.1 ≤ o.maxTime ∧ dist x.2 y.2 ≤ o.maxDistance ∧ angle x.2 y.2 ≤ o.maxAngle

/-- The answers a history must carry: filtered iff there is a previously accepted pose and the new one is
within all limits of the latest such pose. -/
def Correct (dist angle : P → P → S) (o : Options S) (h : List ((Int × P) × Bool)) : Prop :=
  ∀ pre x b post, h = pre ++ (x, b) :: post →
    (b = true ↔ ∃ y, lastAccepted pre = some y ∧ Within dist angle o x y)

private theorem run_append (dist angle : P → P → S) (o : Options S) (s : State P)
    (xs ys : List (Int × P)) :
    run dist angle o s (xs ++ ys) =
      let r1 := run dist angle o s xs
      let r2 := run dist angle o r1.1 ys
      (r2.1, r1.2 ++ r2.2) := by
  induction xs generalizing s with
  | nil => simp [run]
  | cons x xs ih => simp only [List.cons_append, run, ih]

private def Inv (s : State P) (h : List ((Int × P) × Bool)) : Prop :=
  s.numTotal = h.length ∧ s.numDifferent = (h.filter (fun e => !e.2)).length ∧
  (h ≠ [] → lastAccepted h = some s.last)

private theorem run_inv (dist angle : P → P → S) (o : Options S) (l0 : Int × P)
    (xs : List (Int × P)) :
    Inv (run dist angle o ⟨0, 0, l0⟩ xs).1 (run dist angle o ⟨0, 0, l0⟩ xs).2 ∧
    Correct dist angle o (run dist angle o ⟨0, 0, l0⟩ xs).2 ∧
    (run dist angle o ⟨0, 0, l0⟩ xs).2.map Prod.fst = xs := by
  induction xs using List.reverseRecOn with
  | nil =>
    refine ⟨by simp [run, Inv], ?_, by simp [run]⟩
    intro pre x b post h
    simp [run] at h
  | append_singleton xs x ih =>
    obtain ⟨⟨i1, i2, i3⟩, hc, hm⟩ := ih
    rw [run_append]
    generalize run dist angle o ⟨0, 0, l0⟩ xs = r at *
    obtain ⟨s, h⟩ := r
    simp only at i1 i2 i3 hc hm
    simp only [run, isSimilar]
    have correct_snoc : ∀ b : Bool,
        (b = true ↔ ∃ y, lastAccepted h = some y ∧ Within dist angle o x y) →
        Correct dist angle o (h ++ [(x, b)]) := by
      intro b hb pre x' b' post heq
      rcases List.eq_nil_or_concat post with hp | ⟨post', last, hp⟩
      · subst hp
        obtain ⟨e1, e2⟩ := List.append_inj' heq rfl
        cases e2; subst e1; exact hb
      · subst hp
        rw [List.concat_eq_append, ← List.cons_append, ← List.append_assoc] at heq
        obtain ⟨e1, -⟩ := List.append_inj' heq rfl
        exact hc pre x' b' post' e1
    by_cases hcond : s.numTotal + 1 > 1 ∧ x.1 - s.last.1 ≤ o.maxTime ∧
        dist x.2 s.last.2 ≤ o.maxDistance ∧ angle x.2 s.last.2 ≤ o.maxAngle
    · rw [if_pos hcond]
      have hne : h ≠ [] := by
        intro he; subst he; simp at i1; omega
      refine ⟨⟨by simp [i1], by simp [i2], ?_⟩, ?_, by simp [hm]⟩
      · intro _
        have := i3 hne
        simpa [lastAccepted] using this
      · exact correct_snoc true ⟨fun _ => ⟨s.last, i3 hne, hcond.2⟩, fun _ => rfl⟩
    · rw [if_neg hcond]
      refine ⟨⟨by simp [i1], by simp [i2], ?_⟩, ?_, by simp [hm]⟩
      · intro _; simp [lastAccepted]
      · apply correct_snoc false
        constructor
        · intro hf; cases hf
        · rintro ⟨y, hy, hw⟩
          have hne : h ≠ [] := by
            intro he; subst he; simp [lastAccepted] at hy
          have e := i3 hne
          rw [hy] at e; cases e
          have : h.length ≠ 0 := by simpa using hne
          exact absurd ⟨by omega, hw⟩ hcond

/-- **C31.** For every sequence of calls on a fresh filter, every answer is exactly the specified one,
each call is answered once, and the number of poses let through is counted correctly. -/
theorem motion_filter_correct (dist angle : P → P → S) (o : Options S) (l0 : Int × P)
    (xs : List (Int × P)) :
    Correct dist angle o (run dist angle o ⟨0, 0, l0⟩ xs).2 ∧
    (run dist angle o ⟨0, 0, l0⟩ xs).2.map Prod.fst = xs ∧
    (run dist angle o ⟨0, 0, l0⟩ xs).1.numDifferent =
      ((run dist angle o ⟨0, 0, l0⟩ xs).2.filter (fun e => !e.2)).length := by
  obtain ⟨hi, hc, hm⟩ := run_inv dist angle o l0 xs
  exact ⟨hc, hm, hi.2.1⟩

/-- **C31**, consequences: the first pose is let through, and a pose let through after another exceeds
some limit with respect to the previous one let through. -/
theorem motion_filter_consequences (dist angle : P → P → S) (o : Options S) (l0 : Int × P)
    (xs : List (Int × P)) :
    (∀ x b post, (run dist angle o ⟨0, 0, l0⟩ xs).2 = (x, b) :: post → b = false) ∧
    (∀ pre y mid x post,
      (run dist angle o ⟨0, 0, l0⟩ xs).2 = pre ++ (y, false) :: mid ++ (x, false) :: post →
      (∀ e ∈ mid, e.2 = true) → ¬ Within dist angle o x y) := by
  have hc := (motion_filter_correct dist angle o l0 xs).1
  constructor
  · intro x b post h
    have := hc [] x b post h
    simp only [lastAccepted, List.filter_nil, List.getLast?_nil, Option.map_none] at this
    cases b with
    | false => rfl
    | true => simp at this
  · intro pre y mid x post h hmid hw
    have := (hc (pre ++ (y, false) :: mid) x false post h).2
    have hl : lastAccepted (pre ++ (y, false) :: mid) = some y := by
      have hm : mid.filter (fun e => !e.2) = [] := by
        rw [List.filter_eq_nil_iff]; intro e he; simp [hmid e he]
      simp [lastAccepted, hm]
    exact absurd (this ⟨y, hl, hw⟩) (by simp)

/-- Non-vacuity: one-dimensional poses. -/
example : (run (fun a b : Int => |a - b|) (fun _ _ => 0) ⟨100, 5, 0⟩ ⟨0, 0, (0, 0)⟩
    [(0, 0), (1, 3), (2, 6), (3, 8), (200, 8)]).2.map Prod.snd = [false, true, false, true, false] := by
  decide

end Verif.MotionFilter
