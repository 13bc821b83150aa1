import Verif.RateTimer
import Mathlib.Tactic.Ring
import Mathlib.Tactic.Linarith
import Mathlib.Tactic.FieldSimp
import Mathlib.Tactic.NormNum
import Mathlib.Algebra.Order.BigOperators.Group.List
import Mathlib.Data.List.Chain

/-!
# C89: rates of incoming data
-/

namespace Verif.RateTimer

/-! ### Which events are kept -/

/-- How many of the pulses, counted from the newest, are used: all that are in the window, and at least two. -/
def used (window : ℤ) (ps : List Event) (newest : Event) : ℕ :=
  max (min 2 ps.length) (ps.filter fun p => newest.wall - p.wall ≤ window).length

theorem trim_suffix (window : ℤ) : ∀ l : List Event, trim window l <:+ l := by
  intro l
  induction l with
  | nil => exact List.suffix_refl _
  | cons e es ih =>
    unfold trim
    split
    · exact List.suffix_refl _
    · split
      · exact ih.trans (List.suffix_cons _ _)
      · exact List.suffix_refl _

theorem trim_last (window : ℤ) : ∀ l : List Event, (trim window l).getLast? = l.getLast? := by
  intro l
  induction l with
  | nil => rfl
  | cons e es ih =>
    unfold trim
    split
    · rfl
    · rename_i b hb
      split
      · rw [ih]
        cases es with
        | nil => simp at hb
        | cons f fs => rw [List.getLast?_cons_cons]
      · rfl

theorem trim_length (window : ℤ) : ∀ l : List Event, min 2 l.length ≤ (trim window l).length := by
  intro l
  induction l with
  | nil => simp [trim]
  | cons e es ih =>
    unfold trim
    split
    · omega
    · split
      · rename_i h
        simp only [List.length_cons] at h ⊢
        omega
      · omega

/-- One round of trimming of events whose wall times do not decrease. -/
theorem trim_sorted {window : ℤ} {newest : Event} : ∀ {l : List Event}, l.Pairwise (fun a b => a.wall ≤ b.wall) → l.getLast? = some newest →
    trim window l = l.drop (l.length - used window l newest) := by
  intro l
  induction l with
  | nil => intro _ h; cases h
  | cons e es ih =>
    intro hs hl
    rw [List.pairwise_cons] at hs
    unfold trim
    split
    · rename_i hn
      rw [List.getLast?_eq_none_iff] at hn
      subst hn
      simp [used]
    · rename_i b hb
      have hlast : es.getLast? = some newest := by
        cases es with
        | nil => simp at hb
        | cons f fs => rwa [List.getLast?_cons_cons] at hl
      rw [hlast] at hb
      cases hb
      have hlen : 1 ≤ es.length := by
        cases es with
        | nil => simp at hlast
        | cons f fs => simp
      split
      · rename_i hc
        rw [ih hs.2 hlast]
        have hf : (List.filter (fun p : Event => decide (newest.wall - p.wall ≤ window)) (e :: es)) =
            es.filter (fun p => decide (newest.wall - p.wall ≤ window)) := by
          rw [List.filter_cons_of_neg]
          simp only [decide_eq_true_eq]
          omega
        have hfl := List.length_filter_le (fun p : Event => decide (newest.wall - p.wall ≤ window)) es
        simp only [List.length_cons] at hc
        have hu : used window (e :: es) newest = used window es newest := by
          simp only [used, hf, List.length_cons]
          congr 1
          omega
        rw [hu, List.length_cons]
        have : used window es newest ≤ es.length := by
          simp only [used]
          omega
        rw [show es.length + 1 - used window es newest = (es.length - used window es newest) + 1 by omega, List.drop_succ_cons]
      · rename_i hc
        have : (e :: es).length ≤ used window (e :: es) newest := by
          by_cases h2 : 2 < (e :: es).length
          · have hw : newest.wall - e.wall ≤ window := by
              by_contra hw
              exact hc ⟨h2, by omega⟩
            have : (e :: es).filter (fun p => decide (newest.wall - p.wall ≤ window)) = e :: es := by
              rw [List.filter_eq_self]
              intro p hp
              rw [decide_eq_true_eq]
              rcases List.mem_cons.1 hp with rfl | hp
              · exact hw
              · have := hs.1 p hp
                omega
            simp only [used, this]
            omega
          · simp only [used]
            omega
        rw [show (e :: es).length - used window (e :: es) newest = 0 by omega, List.drop_zero]

theorem used_of_drop {window : ℤ} {newest p : Event} {ps : List Event} (hs : (ps ++ [p]).Pairwise (fun a b => a.wall ≤ b.wall)) (hl : ps.getLast? = some newest)
    : used window (ps.drop (ps.length - used window ps newest) ++ [p]) p = used window (ps ++ [p]) p := by
  have hfl := List.length_filter_le (fun q : Event => decide (newest.wall - q.wall ≤ window)) ps
  have hne : 1 ≤ ps.length := by
    cases ps with
    | nil => simp at hl
    | cons a b => simp
  have hu : used window ps newest ≤ ps.length := by simp only [used]; omega
  have hu1 : min 2 ps.length ≤ used window ps newest := by simp only [used]; omega
  obtain ⟨n, hn⟩ : ∃ n, n = ps.length - used window ps newest := ⟨_, rfl⟩
  have hsplit : ps = ps.take n ++ ps.drop n := (List.take_append_drop n ps).symm
  have hnew : newest.wall ≤ p.wall := (List.pairwise_append.1 hs).2.2 newest (List.mem_of_getLast? hl) p (by simp)
  have hout : ((ps.take n).filter fun q : Event => decide (p.wall - q.wall ≤ window)) = [] := by
    rw [List.filter_eq_nil_iff]
    intro q hq
    rw [decide_eq_true_eq]
    intro hle
    -- `q` is in the window of `newest`, and so are all after it.
    obtain ⟨i, hi, rfl⟩ := List.mem_iff_getElem.1 hq
    rw [List.length_take] at hi
    have hsub : List.Sublist (ps.drop i) (ps.filter (fun q : Event => decide (newest.wall - q.wall ≤ window))) := by
      have h1 : (ps.drop i).filter (fun q : Event => decide (newest.wall - q.wall ≤ window)) = ps.drop i := by
        rw [List.filter_eq_self]
        intro r hr
        rw [decide_eq_true_eq]
        obtain ⟨j, hj, rfl⟩ := List.mem_iff_getElem.1 hr
        rw [List.length_drop] at hj
        rw [List.getElem_drop]
        rw [List.getElem_take] at hle
        have hw : ps[i].wall ≤ ps[i + j].wall := by
          rcases Nat.eq_zero_or_pos j with rfl | hj0
          · exact le_refl _
          · exact List.pairwise_iff_getElem.1 (List.pairwise_append.1 hs).1 i (i + j) (by omega) (by omega) (by omega)
        omega
      rw [← h1]
      exact (List.drop_sublist i ps).filter _
    have := hsub.length_le
    rw [List.length_drop] at this
    have : used window ps newest ≥ ps.length - i := by
      simp only [used]
      omega
    omega
  have hlen : ((ps ++ [p]).filter fun q : Event => decide (p.wall - q.wall ≤ window)) =
      ((ps.drop n ++ [p]).filter fun q : Event => decide (p.wall - q.wall ≤ window)) := by
    conv_lhs => rw [hsplit]
    rw [List.append_assoc, List.filter_append (p := fun q : Event => decide (p.wall - q.wall ≤ window)) (l₁ := ps.take n), hout, List.nil_append]
  rw [← hn]
  simp only [used, hlen, List.length_append, List.length_drop, List.length_singleton]
  congr 1
  omega

/-- **C89, the window.** When the wall clock does not go backwards, the events of a timer after any pulses are the newest ones: those whose wall time differs
from that of the last pulse by at most the window, and at least two (if there were two). -/
theorem kept_events {window : ℤ} : ∀ {ps : List Event} {newest : Event}, ps.Pairwise (fun a b => a.wall ≤ b.wall) → ps.getLast? = some newest →
    after window ps = ps.drop (ps.length - used window ps newest) := by
  intro ps
  induction ps using List.reverseRecOn with
  | nil => intro _ _ h; cases h
  | append_singleton ps p ih =>
    intro newest hs hl
    rw [List.getLast?_concat] at hl
    cases hl
    have hstep : after window (ps ++ [p]) = trim window (after window ps ++ [p]) := by
      simp only [after, List.foldl_append, List.foldl_cons, List.foldl_nil, pulse]
    rw [hstep]
    cases hps : ps.getLast? with
    | none =>
      rw [List.getLast?_eq_none_iff] at hps
      subst hps
      simp [after, trim, used]
    | some old =>
      have hps' := (List.pairwise_append.1 hs).1
      rw [ih hps' hps]
      have hsd : (ps.drop (ps.length - used window ps old) ++ [p]).Pairwise (fun a b => a.wall ≤ b.wall) :=
        hs.sublist ((List.drop_sublist _ _).append_right _)
      rw [trim_sorted hsd (by rw [List.getLast?_concat]), used_of_drop hs hps]
      have hfl := List.length_filter_le (fun q : Event => decide (old.wall - q.wall ≤ window)) ps
      have hflp := List.length_filter_le (fun q : Event => decide (p.wall - q.wall ≤ window)) (ps ++ [p])
      have hu : used window ps old ≤ ps.length := by simp only [used]; omega
      have hup : used window (ps ++ [p]) p ≤ (ps ++ [p]).length := by simp only [used]; omega
      obtain ⟨n, hn⟩ : ∃ n, n = ps.length - used window ps old := ⟨_, rfl⟩
      have hle : used window (ps ++ [p]) p ≤ (ps.drop n ++ [p]).length := by
        have := used_of_drop (window := window) hs hps
        rw [← hn] at this
        rw [← this]
        have := List.length_filter_le (fun q : Event => decide (p.wall - q.wall ≤ window)) (ps.drop n ++ [p])
        simp only [used]
        omega
      rw [← hn]
      rw [show ps.drop n ++ [p] = (ps ++ [p]).drop n by rw [List.drop_append_of_le_length (by omega)], List.drop_drop]
      congr 1
      rw [List.length_append, List.length_drop] at hle
      rw [List.length_drop]
      rw [List.length_append] at hup ⊢
      omega

/-- **C89, whatever the clock does,** the events are the newest pulses in order, the last pulse is among them, and two are kept if there were two. -/
theorem kept_any_clock (window : ℤ) (ps : List Event) : after window ps <:+ ps ∧ (after window ps).getLast? = ps.getLast? ∧ min 2 ps.length ≤ (after window ps).length := by
  induction ps using List.reverseRecOn with
  | nil => exact ⟨List.suffix_refl _, rfl, le_refl _⟩
  | append_singleton ps p ih =>
    have hstep : after window (ps ++ [p]) = trim window (after window ps ++ [p]) := by
      simp only [after, List.foldl_append, List.foldl_cons, List.foldl_nil, pulse]
    rw [hstep]
    refine ⟨(trim_suffix _ _).trans ?_, ?_, ?_⟩
    · obtain ⟨t, ht⟩ := ih.1
      exact ⟨t, by rw [← List.append_assoc, ht]⟩
    · rw [trim_last, List.getLast?_concat, List.getLast?_concat]
    · have h1 := trim_length window (after window ps ++ [p])
      have h2 := ih.2.2
      rw [List.length_append, List.length_singleton] at h1 ⊢
      omega

/-- Pulses every 100 ms (1000000 ticks) with a window of 250 ms: three are used. -/
example : after 2500000 [⟨0, 0⟩, ⟨7, 1000000⟩, ⟨9, 2000000⟩, ⟨11, 3000000⟩] = [⟨7, 1000000⟩, ⟨9, 2000000⟩, ⟨11, 3000000⟩] := by decide +kernel

/-- Pulses slower than the window: two are used. -/
example : after 500 [⟨0, 0⟩, ⟨7, 1000⟩, ⟨9, 2000⟩] = [⟨7, 1000⟩, ⟨9, 2000⟩] := by decide +kernel

/-! ### The rate -/

theorem differences_length : ∀ l : List Event, (differences l).length = l.length - 1
  | [] => rfl
  | [_] => rfl
  | _ :: f :: es => by
    rw [differences, List.length_cons, differences_length (f :: es)]
    simp

theorem differences_sum : ∀ {l : List Event} {f b : Event}, l.head? = some f → l.getLast? = some b → (differences l).sum = seconds (b.time - f.time)
  | [], _, _, h, _ => by cases h
  | [e], f, b, h, h' => by
    cases h
    cases h'
    simp [differences, seconds]
  | e :: g :: es, f, b, h, h' => by
    cases h
    rw [List.getLast?_cons_cons] at h'
    rw [differences, List.sum_cons, differences_sum (f := g) rfl h']
    unfold seconds
    push_cast
    ring

theorem length_two {l : List Event} (h : 2 ≤ l.length) : ∃ f b, l.head? = some f ∧ l.getLast? = some b := by
  cases l with
  | nil => simp at h
  | cons e es => exact ⟨e, _, rfl, List.getLast?_eq_getLast_of_ne_nil (by simp)⟩

/-- **C89, the rate lies between the rates of the single steps.** If at least two events are kept and consecutive times differ by at least `a > 0` and at
most `b` ticks, then the rate is a number of at least `10^7 / b` and at most `10^7 / a` hertz. -/
theorem rate_bounds {events : List Event} (hl : 2 ≤ events.length) {a b : ℤ} (ha : 0 < a)
    (hd : ∀ x ∈ differences events, seconds a ≤ x ∧ x ≤ seconds b) :
    ∃ q, rate events = .num q ∧ 10000000 / (b : ℚ) ≤ q ∧ q ≤ 10000000 / (a : ℚ) := by
  obtain ⟨f, l, hf, hb⟩ := length_two hl
  have hsum := differences_sum hf hb
  have hlen := differences_length events
  have h1 := List.card_nsmul_le_sum (differences events) (seconds a) (fun x hx => (hd x hx).1)
  have h2 := List.sum_le_card_nsmul (differences events) (seconds b) (fun x hx => (hd x hx).2)
  rw [hsum, hlen, nsmul_eq_mul] at h1 h2
  have hn : ((events.length - 1 : ℕ) : ℚ) = (events.length : ℚ) - 1 := by
    rw [Nat.cast_sub (by omega), Nat.cast_one]
  rw [hn] at h1 h2
  have hn1 : (1 : ℚ) ≤ (events.length : ℚ) - 1 := by
    have : (2 : ℚ) ≤ events.length := by exact_mod_cast hl
    linarith
  have ha' : (0 : ℚ) < a := by exact_mod_cast ha
  generalize hN : (events.length : ℚ) - 1 = N at *
  simp only [seconds] at h1 h2
  generalize hT : ((l.time - f.time : ℤ) : ℚ) = t at *
  have hNpos : 0 < N := by linarith
  have hNa : 0 < N * a := mul_pos hNpos ha'
  have hta : N * a ≤ t := by
    have : N * (a / 10000000) = N * a / 10000000 := by ring
    rw [this] at h1
    have := (div_le_div_iff_of_pos_right (show (0 : ℚ) < 10000000 by norm_num)).1 h1
    exact this
  have htb : t ≤ N * b := by
    have : N * (b / 10000000) = N * b / 10000000 := by ring
    rw [this] at h2
    exact (div_le_div_iff_of_pos_right (show (0 : ℚ) < 10000000 by norm_num)).1 h2
  have ht : 0 < t := lt_of_lt_of_le hNa hta
  have hbpos : (0 : ℚ) < b := by
    by_contra hcon
    have : N * (b : ℚ) ≤ 0 := mul_nonpos_of_nonneg_of_nonpos hNpos.le (not_lt.1 hcon)
    linarith
  refine ⟨N / (t / 10000000), ?_, ?_, ?_⟩
  · simp only [rate, hf, hb, divide, seconds, hT, hN]
    rw [if_pos]
    exact (div_pos ht (by norm_num)).ne'
  · rw [div_div_eq_mul_div, div_le_div_iff₀ hbpos ht]
    nlinarith
  · rw [div_div_eq_mul_div, div_le_div_iff₀ ht ha']
    nlinarith

/-- **C89, a steady sensor.** For times that differ by the same `p > 0` ticks the rate is exactly `10^7 / p` hertz, whatever the wall clock does. -/
theorem rate_steady {events : List Event} (hl : 2 ≤ events.length) {p : ℤ} (hp : 0 < p) (hd : ∀ x ∈ differences events, x = seconds p) :
    rate events = .num (10000000 / (p : ℚ)) := by
  obtain ⟨q, h, h1, h2⟩ := rate_bounds hl hp (fun x hx => ⟨(hd x hx).ge, (hd x hx).le⟩)
  rw [h, le_antisymm h2 h1]

/-- **C89, what is logged.** With two or more events whose first and last time differ, the mean of the differences is the inverse of the rate. -/
theorem mean_inverse_of_rate {events : List Event} (hl : 2 ≤ events.length) {f b : Event} (hf : events.head? = some f) (hb : events.getLast? = some b)
    (hne : f.time ≠ b.time) : ∃ q m v, rate events = .num q ∧ statistics events = some (.num m, v) ∧ q * m = 1 := by
  have hlen := differences_length events
  have hn : ((events.length - 1 : ℕ) : ℚ) = (events.length : ℚ) - 1 := by
    rw [Nat.cast_sub (by omega), Nat.cast_one]
  have hN : (events.length : ℚ) - 1 ≠ 0 := by
    have : (2 : ℚ) ≤ events.length := by exact_mod_cast hl
    intro h
    linarith
  have ht : seconds (b.time - f.time) ≠ 0 := by
    unfold seconds
    have : ((b.time - f.time : ℤ) : ℚ) ≠ 0 := by
      rw [Int.cast_ne_zero]
      omega
    exact div_ne_zero this (by norm_num)
  have hstat : ∃ v, statistics events = some (.num (seconds (b.time - f.time) / ((events.length : ℚ) - 1)), v) := by
    unfold statistics deltas
    simp only [Option.bind_eq_bind]
    rw [if_pos (by omega), Option.bind_some, differences_sum hf hb, hlen, hn]
    simp only [divide]
    rw [if_pos hN]
    exact ⟨_, rfl⟩
  obtain ⟨v, hv⟩ := hstat
  refine ⟨((events.length : ℚ) - 1) / seconds (b.time - f.time), _, v, ?_, hv, ?_⟩
  · simp only [rate, hf, hb, divide]
    rw [if_pos ht]
  · field_simp

/-- **C89, the text is always made:** no `CHECK` fails, and it is "unknown" exactly before the second pulse. -/
theorem debug_total (window : ℤ) (ps : List Event) : debug (after window ps) ≠ none ∧ (debug (after window ps) = some none ↔ ps.length < 2) := by
  obtain ⟨h1, _, h3⟩ := kept_any_clock window ps
  have h4 := h1.length_le
  have hs : ∀ l : List Event, 2 ≤ l.length → ∃ v, debug l = some (some v) := by
    intro l hl
    unfold debug
    rw [if_neg (by omega)]
    unfold statistics deltas
    simp only [Option.bind_eq_bind]
    rw [if_pos (by omega), Option.bind_some]
    split
    · exact ⟨_, rfl⟩
    · exact ⟨_, rfl⟩
  by_cases h : ps.length < 2
  · have : debug (after window ps) = some none := by
      unfold debug
      rw [if_pos (by omega)]
    rw [this]
    simp [h]
  · obtain ⟨v, hv⟩ := hs (after window ps) (by omega)
    rw [hv]
    simp [h]

/-- **C89, disagreement.** With exactly two events the standard deviation that is logged is "not a number" (zero divided by zero), for whatever times and
wall times, so a sensor slower than the window never gets one. -/
theorem sigma_nan (e f : Event) : ∃ m, statistics [e, f] = some (.num m, .nan) := by
  refine ⟨seconds (f.time - e.time), ?_⟩
  simp [statistics, deltas, differences, divide]

/-- For three or more events it is a number that is not negative. -/
theorem sigma_num {events : List Event} (hl : 3 ≤ events.length) : ∃ m v, statistics events = some (.num m, .num v) ∧ 0 ≤ v := by
  have hlen := differences_length events
  have hN : (2 : ℚ) ≤ ((differences events).length : ℚ) := by
    rw [hlen]
    have : 2 ≤ events.length - 1 := by omega
    exact_mod_cast this
  have hstat : statistics events = some (.num ((differences events).sum / (differences events).length),
      .num (((differences events).map fun x => (x - (differences events).sum / (differences events).length) ^ 2).sum / (((differences events).length : ℚ) - 1))) := by
    unfold statistics deltas
    simp only [Option.bind_eq_bind]
    rw [if_pos (by omega), Option.bind_some]
    simp only [divide]
    rw [if_pos (show ((differences events).length : ℚ) ≠ 0 by intro h; linarith)]
    dsimp only
    rw [if_pos (show ((differences events).length : ℚ) - 1 ≠ 0 by intro h; linarith)]
  refine ⟨_, _, hstat, ?_⟩
  apply div_nonneg
  · apply List.sum_nonneg
    intro x hx
    obtain ⟨y, _, rfl⟩ := List.mem_map.1 hx
    exact sq_nonneg _
  · linarith

/-- A steady sensor has no deviation. -/
theorem sigma_steady {events : List Event} (hl : 3 ≤ events.length) {p : ℚ} (hd : ∀ x ∈ differences events, x = p) :
    statistics events = some (.num p, .num 0) := by
  have hlen := differences_length events
  have hN : (2 : ℚ) ≤ ((differences events).length : ℚ) := by
    rw [hlen]
    have : 2 ≤ events.length - 1 := by omega
    exact_mod_cast this
  have hsum : (differences events).sum = (differences events).length * p := by
    rw [List.eq_replicate_iff.2 ⟨rfl, hd⟩, List.sum_replicate, nsmul_eq_mul, List.length_replicate]
  have hmean : (differences events).sum / ((differences events).length : ℚ) = p := by
    rw [hsum]
    field_simp
  unfold statistics deltas
  simp only [Option.bind_eq_bind]
  rw [if_pos (by omega), Option.bind_some]
  simp only [divide]
  rw [if_pos (show ((differences events).length : ℚ) ≠ 0 by intro h; linarith)]
  dsimp only
  rw [if_pos (show ((differences events).length : ℚ) - 1 ≠ 0 by intro h; linarith), hmean]
  have : ((differences events).map fun x => (x - p) ^ 2).sum = 0 := by
    apply List.sum_eq_zero
    intro x hx
    obtain ⟨y, hy, rfl⟩ := List.mem_map.1 hx
    rw [hd y hy, sub_self]
    norm_num
  rw [this, zero_div]

/-- **C89, the ratio to wall time.** If the pulses come `r` times as fast as their times say, that is if time differences are `r` times those of the wall clock,
then the ratio is `r`. -/
theorem ratio_steady {events : List Event} {f b : Event} (hf : events.head? = some f) (hb : events.getLast? = some b) (hne : f.wall ≠ b.wall) {r : ℚ}
    (hr : ((b.time - f.time : ℤ) : ℚ) = r * ((b.wall - f.wall : ℤ) : ℚ)) : ratio events = .num r := by
  have hw : ((b.wall - f.wall : ℤ) : ℚ) ≠ 0 := by
    rw [Int.cast_ne_zero]
    omega
  simp only [ratio, hf, hb, divide, seconds, hr]
  rw [if_pos (div_ne_zero hw (by norm_num))]
  congr 1
  field_simp

/-- A single event gives no number: zero divided by zero.  Events with equal times give infinity. -/
theorem rate_degenerate (e : Event) {f : Event} (h : f.time = e.time) : rate [e] = .nan ∧ rate [e, f] = .infinity false := by
  constructor
  · simp [rate, divide, seconds]
  · simp [rate, divide, seconds, h]
    norm_num

/-- Ten hertz sent at twenty hertz: rate 10, mean 0.1, no deviation and ratio 2 (the example of the comment in the source). -/
example : debug (after 150000000 [⟨0, 0⟩, ⟨1000000, 500000⟩, ⟨2000000, 1000000⟩]) = some (some (.num 10, .num (1 / 10), .num 0, .num 2)) := by decide +kernel

example : ∀ x ∈ differences [⟨0, 5⟩, ⟨1000000, 5⟩, ⟨2000000, 900⟩], x = seconds 1000000 := by decide +kernel

end Verif.RateTimer
