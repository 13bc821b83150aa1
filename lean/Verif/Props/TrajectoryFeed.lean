import Verif.TrajectoryFeed
import Verif.CollatorsLemmas
import Verif.Props.OrderedMultiQueue
import Verif.MapByTime
import Mathlib.Data.List.Nodup

/-!
# C90: from the sensors to the local trajectory builder and the pose graph
-/

namespace Verif.Feed

variable {S V : Type} [LinearOrder S]

/-! ### What the calls give to the queue -/

/-- The queue operations of a call. -/
def opsOf (o : Options) (ids : List (Kind × S)) : Call S V → List (OMQ.Op S (Datum S V))
  | .data d _ => if skipped o d.kind then [] else [.add d.sensor d]
  | .finish _ => (expected o ids).map .finish
  | .flush _ => [.flush]

/-- The data of calls. -/
def added : List (Call S V) → List (Datum S V)
  | [] => []
  | .data d _ :: r => d :: added r
  | .finish _ :: r => added r
  | .flush _ :: r => added r

theorem step_queue {o : Options} {ids : List (Kind × S)} {c c' : Collated S V} {x : Call S V} {out : List (Datum S V)} (h : c.step o ids x = some (c', out)) :
    ∃ outs, OMQ.run qtraj qtime c.queue (opsOf o ids x) = some (c'.queue, outs) ∧
      ((∃ d w, x = .data d w ∧ skipped o d.kind = true ∧ out = [d] ∧ outs = []) ∨ ((∀ d w, x = .data d w → skipped o d.kind = false) ∧ out = outs.map Prod.snd)) := by
  cases x with
  | data d w =>
    unfold Collated.step at h
    dsimp only at h
    split at h
    · rename_i hs
      cases h
      exact ⟨[], by simp [opsOf, hs, OMQ.run], Or.inl ⟨d, w, rfl, hs, rfl, rfl⟩⟩
    · rename_i hs
      simp only [Option.bind_eq_bind, Option.bind_eq_some_iff, Option.some.injEq, Prod.mk.injEq] at h
      obtain ⟨r, h1, rfl, rfl⟩ := h
      refine ⟨r.2, ?_, Or.inr ⟨?_, rfl⟩⟩
      · simp [opsOf, hs, OMQ.run, OMQ.step, h1]
      · rintro d' w' he
        cases he
        simpa using hs
  | finish w =>
    simp only [Collated.step, Option.bind_eq_bind, Option.bind_eq_some_iff, Option.some.injEq, Prod.mk.injEq] at h
    obtain ⟨r, h1, rfl, rfl⟩ := h
    rw [OMQ.markAll_eq_run] at h1
    exact ⟨r.2, h1, Or.inr ⟨by simp, rfl⟩⟩
  | flush w =>
    simp only [Collated.step, Option.bind_eq_bind, Option.bind_eq_some_iff, Option.some.injEq, Prod.mk.injEq] at h
    obtain ⟨r, h1, rfl, rfl⟩ := h
    refine ⟨r.2, ?_, Or.inr ⟨by simp, rfl⟩⟩
    simp [opsOf, OMQ.run, OMQ.step, h1]

theorem step_exists {o : Options} {ids : List (Kind × S)} {c : Collated S V} {x : Call S V} {q : OMQ.State S Unit (Datum S V) (WithBot ℤ)} {outs : List (S × Datum S V)}
    (h : OMQ.run qtraj qtime c.queue (opsOf o ids x) = some (q, outs)) : ∃ r, c.step o ids x = some r := by
  cases x with
  | data d w =>
    unfold Collated.step
    dsimp only
    split
    · exact ⟨_, rfl⟩
    · rename_i hs
      simp only [opsOf, hs, if_false, OMQ.run, OMQ.step, Option.bind_eq_some_iff, Option.map_eq_some_iff, Bool.false_eq_true] at h
      obtain ⟨r, h1, _⟩ := h
      simp only [Option.bind_eq_bind]
      rw [h1, Option.bind_some]
      exact ⟨_, rfl⟩
  | finish w =>
    simp only [opsOf] at h
    rw [← OMQ.markAll_eq_run] at h
    simp only [Collated.step, Option.bind_eq_bind]
    rw [h, Option.bind_some]
    exact ⟨_, rfl⟩
  | flush w =>
    simp only [opsOf, OMQ.run, OMQ.step, Option.bind_eq_some_iff, Option.map_eq_some_iff] at h
    obtain ⟨r, h1, _⟩ := h
    simp only [Collated.step, Option.bind_eq_bind]
    rw [h1, Option.bind_some]
    exact ⟨_, rfl⟩

/-- Data that goes through the collator. -/
def collated (o : Options) (d : Datum S V) : Bool := !skipped o d.kind

theorem run_queue {o : Options} {ids : List (Kind × S)} : ∀ {xs : List (Call S V)} {c c' : Collated S V} {reached : List (Datum S V)},
    c.run o ids xs = some (c', reached) → ∃ outs, OMQ.run qtraj qtime c.queue (xs.flatMap (opsOf o ids)) = some (c'.queue, outs) ∧
      ((∀ x ∈ outs, collated o x.2 = true) → reached.filter (collated o) = outs.map Prod.snd ∧
        reached.filter (fun d => !collated o d) = (added xs).filter (fun d => !collated o d)) := by
  intro xs
  induction xs with
  | nil =>
    intro c c' reached h
    cases h
    exact ⟨[], rfl, by simp [added]⟩
  | cons x xs ih =>
    intro c c' reached h
    simp only [Collated.run, Option.bind_eq_bind, Option.bind_eq_some_iff, Option.some.injEq, Prod.mk.injEq] at h
    obtain ⟨⟨c1, r1⟩, h1, ⟨c2, r2⟩, h2, rfl, rfl⟩ := h
    obtain ⟨o1, q1, hx⟩ := step_queue h1
    obtain ⟨o2, q2, hxs⟩ := ih h2
    refine ⟨o1 ++ o2, ?_, ?_⟩
    · rw [List.flatMap_cons, OMQ.run_append, q1, Option.bind_some]
      dsimp only
      rw [q2, Option.map_some]
    · intro hall
      obtain ⟨a, b⟩ := hxs (fun y hy => hall y (List.mem_append_right _ hy))
      dsimp only at a b ⊢
      rw [List.filter_append, List.filter_append, a, b]
      rcases hx with ⟨d, w, rfl, hs, rfl, rfl⟩ | ⟨hs, rfl⟩
      · simp [collated, hs, added]
      · have hm : (o1.map Prod.snd).filter (collated o) = o1.map Prod.snd := by
          rw [List.filter_eq_self]
          intro y hy
          obtain ⟨z, hz, rfl⟩ := List.mem_map.1 hy
          exact hall z (List.mem_append_left _ hz)
        have hm' : (o1.map Prod.snd).filter (fun d => !collated o d) = [] := by
          rw [List.filter_eq_nil_iff]
          intro y hy
          obtain ⟨z, hz, rfl⟩ := List.mem_map.1 hy
          simp [hall z (List.mem_append_left _ hz)]
        rw [hm, hm', List.map_append]
        refine ⟨rfl, ?_⟩
        cases x with
        | data d w =>
          rw [added, List.filter_cons_of_neg (by simp [collated, hs d w rfl])]
          rfl
        | finish w => rfl
        | flush w => rfl

theorem run_exists {o : Options} {ids : List (Kind × S)} : ∀ {xs : List (Call S V)} {c : Collated S V} {q : OMQ.State S Unit (Datum S V) (WithBot ℤ)}
    {outs : List (S × Datum S V)}, OMQ.run qtraj qtime c.queue (xs.flatMap (opsOf o ids)) = some (q, outs) → ∃ r, c.run o ids xs = some r := by
  intro xs
  induction xs with
  | nil => intro c q outs _; exact ⟨_, rfl⟩
  | cons x xs ih =>
    intro c q outs h
    rw [List.flatMap_cons, OMQ.run_append] at h
    simp only [Option.bind_eq_some_iff, Option.map_eq_some_iff] at h
    obtain ⟨⟨q1, o1⟩, h1, ⟨q2, o2⟩, h2, _⟩ := h
    obtain ⟨⟨c1, r1⟩, h3⟩ := step_exists h1
    obtain ⟨o1', q1', _⟩ := step_queue h3
    rw [h1] at q1'
    cases q1'
    obtain ⟨⟨c2, r2⟩, h4⟩ := ih h2
    refine ⟨(c2, r1 ++ r2), ?_⟩
    simp only [Collated.run, Option.bind_eq_bind]
    rw [h3, Option.bind_some]
    dsimp only
    rw [h4, Option.bind_some]

/-! ### Use of the interface -/

/-- Any data, and then possibly the end of the trajectory. -/
def Protocol (calls : List (Call S V)) : Prop :=
  ∃ (ds : List (Datum S V × ℤ)) (tail : List (Call S V)), calls = ds.map (fun p => .data p.1 p.2) ++ tail ∧ (tail = [] ∨ (∃ w, tail = [.finish w]) ∨ ∃ w, tail = [.flush w])

/-- The calls end the trajectory. -/
def Ends (calls : List (Call S V)) : Prop :=
  ∃ (ds : List (Datum S V × ℤ)) (tail : List (Call S V)), calls = ds.map (fun p => .data p.1 p.2) ++ tail ∧ ((∃ w, tail = [.finish w]) ∨ ∃ w, tail = [.flush w])

/-- The data of one sensor id that goes through the collator. -/
def ofSensor (o : Options) (s : S) (l : List (Datum S V)) : List (Datum S V) := l.filter fun d => collated o d && decide (d.sensor = s)

/-- Each sensor id that is expected gives its data in order of time. -/
def InOrder (o : Options) (ids : List (Kind × S)) (calls : List (Call S V)) : Prop :=
  ∀ s ∈ expected o ids, (ofSensor o s (added calls)).Pairwise fun a b => a.time ≤ b.time

theorem input_ops (o : Options) (ids : List (Kind × S)) (s : S) (xs : List (Call S V)) : OMQ.input s (xs.flatMap (opsOf o ids)) = ofSensor o s (added xs) := by
  induction xs with
  | nil => rfl
  | cons x xs ih =>
    rw [List.flatMap_cons, OMQ.input_append, ih]
    cases x with
    | data d w =>
      simp only [opsOf, added, ofSensor]
      by_cases hs : skipped o d.kind = true
      · rw [if_pos hs, List.filter_cons_of_neg (by simp [collated, hs])]
        rfl
      · rw [if_neg hs]
        simp only [OMQ.input]
        split
        · rename_i he
          rw [List.filter_cons_of_pos (by simp [collated, hs, he])]
          rfl
        · rename_i he
          rw [List.filter_cons_of_neg (by simp [he])]
          rfl
    | finish w =>
      simp only [opsOf, added]
      have : ∀ l : List S, OMQ.input (D := Datum S V) s (l.map .finish) = [] := by
        intro l
        induction l with
        | nil => rfl
        | cons a l ih => simpa [OMQ.input] using ih
      rw [this, List.nil_append]
    | flush w => simp [opsOf, added, OMQ.input]

theorem valid_finishes {reg : S → Prop} : ∀ {l : List S} {opn : S → Prop}, l.Nodup → (∀ s ∈ l, opn s) → OMQ.Valid (D := Datum S V) reg opn (l.map .finish) := by
  intro l
  induction l with
  | nil => intro _ _ _; trivial
  | cons a l ih =>
    intro opn hn ho
    rw [List.nodup_cons] at hn
    refine ⟨ho a (by simp), ih hn.2 ?_⟩
    intro s hs
    refine ⟨ho s (by simp [hs]), ?_⟩
    rintro rfl
    exact hn.1 hs

theorem valid_data {o : Options} {ids : List (Kind × S)} {reg : S → Prop} {rest : List (OMQ.Op S (Datum S V))} : ∀ (ds : List (Datum S V × ℤ)),
    OMQ.Valid reg reg rest → OMQ.Valid reg reg ((ds.map (fun p => Call.data p.1 p.2)).flatMap (opsOf o ids) ++ rest) := by
  intro ds
  induction ds with
  | nil => intro h; exact h
  | cons d ds ih =>
    intro h
    rw [List.map_cons, List.flatMap_cons, List.append_assoc]
    simp only [opsOf]
    split
    · exact ih h
    · exact ⟨by tauto, ih h⟩

theorem valid_protocol {o : Options} {ids : List (Kind × S)} {calls : List (Call S V)} (h : Protocol calls) :
    OMQ.Valid (· ∈ expected o ids) (· ∈ expected o ids) (calls.flatMap (opsOf o ids)) := by
  obtain ⟨ds, tail, rfl, ht⟩ := h
  rw [List.flatMap_append]
  apply valid_data
  rcases ht with rfl | ⟨w, rfl⟩ | ⟨w, rfl⟩
  · trivial
  · simp only [List.flatMap_cons, List.flatMap_nil, List.append_nil, opsOf]
    exact valid_finishes (List.nodup_dedup _) (fun s hs => hs)
  · simp [opsOf, OMQ.Valid]

theorem sorted_input {o : Options} {ids : List (Kind × S)} {calls : List (Call S V)} (h : InOrder o ids calls) :
    OMQ.SortedInput qtime (expected o ids) (calls.flatMap (opsOf o ids)) := by
  intro s hs
  rw [input_ops]
  exact (h s hs).imp fun hab => WithBot.coe_le_coe.2 hab

/-- The whole: a new builder and the calls. -/
def feed (o : Options) (ids : List (Kind × S)) (calls : List (Call S V)) : Option (Collated S V × List (Datum S V)) :=
  (Collated.init o ids).bind fun c => c.run o ids calls

/-- The results of the queue for the same calls. -/
theorem feed_queue {o : Options} {ids : List (Kind × S)} {calls : List (Call S V)} (hp : Protocol calls) (hs : InOrder o ids calls) :
    ∃ c reached outs, feed o ids calls = some (c, reached) ∧ OMQ.runFrom (J := Unit) qtraj qtime (expected o ids) (calls.flatMap (opsOf o ids)) = some (c.queue, outs) ∧
      reached.filter (collated o) = outs.map Prod.snd ∧ reached.filter (fun d => !collated o d) = (added calls).filter (fun d => !collated o d) ∧
      ∀ x ∈ outs, x.1 = x.2.sensor ∧ collated o x.2 = true := by
  have hn : (expected o ids).Nodup := List.nodup_dedup _
  obtain ⟨q, outs, hrun, _⟩ := OMQ.collated_in_time_order (J := Unit) (traj := qtraj) hn (valid_protocol hp) (sorted_input hs)
  have hdup := OMQ.collated_no_duplication hn (valid_protocol hp) (sorted_input hs) hrun
  have hprop : ∀ x ∈ outs, x.1 = x.2.sensor ∧ collated o x.2 = true := by
    intro x hx
    have h1 : x.2 ∈ OMQ.emitted x.1 outs := by
      unfold OMQ.emitted
      exact List.mem_map.2 ⟨x, List.mem_filter.2 ⟨hx, by simp⟩, rfl⟩
    have h2 := (hdup.1 x.1 (hdup.2 x hx)).subset h1
    rw [input_ops] at h2
    have h3 := (List.mem_filter.1 h2).2
    simp only [Bool.and_eq_true, decide_eq_true_eq] at h3
    exact ⟨h3.2.symm, h3.1⟩
  have hrun' := hrun
  unfold OMQ.runFrom at hrun'
  rw [Option.bind_eq_some_iff] at hrun'
  obtain ⟨q0, h0, h1⟩ := hrun'
  obtain ⟨⟨c, reached⟩, h2⟩ := run_exists (c := (⟨q0, fun _ => []⟩ : Collated S V)) h1
  obtain ⟨outs', h3, h4⟩ := run_queue h2
  rw [h1] at h3
  cases h3
  obtain ⟨h5, h6⟩ := h4 (fun x hx => (hprop x hx).2)
  refine ⟨c, reached, outs, ?_, hrun, h5, h6, hprop⟩
  unfold feed Collated.init
  rw [h0, Option.map_some, Option.bind_some, h2]

/-- **C90, order.** If each expected sensor id gives its data in order of time, no `CHECK` of the collator fails, for any interleaving; the collated data reaches
the wrapped builder in order of time, and for equal times in order of sensor ids; each sensor's data keeps its order and is given without gaps; data of
unexpected sensors is never given; data of the types that are not collated is given completely, in the order in which it comes. -/
theorem feed_order {o : Options} {ids : List (Kind × S)} {calls : List (Call S V)} (hp : Protocol calls) (hs : InOrder o ids calls) :
    ∃ c reached, feed o ids calls = some (c, reached) ∧
      (reached.filter (collated o)).Pairwise (fun a b => a.time ≤ b.time ∧ (a.time = b.time → a.sensor ≤ b.sensor)) ∧
      (∀ s ∈ expected o ids, ofSensor o s reached <:+: ofSensor o s (added calls)) ∧
      (∀ d ∈ reached, collated o d = true → d.sensor ∈ expected o ids) ∧
      reached.filter (fun d => !collated o d) = (added calls).filter (fun d => !collated o d) := by
  have hn : (expected o ids).Nodup := List.nodup_dedup _
  obtain ⟨c, reached, outs, hf, hrun, h1, h2, h3⟩ := feed_queue hp hs
  obtain ⟨q, outs', hrun', ho1, ho2⟩ := OMQ.collated_in_time_order (J := Unit) (traj := qtraj) hn (valid_protocol hp) (sorted_input hs)
  rw [hrun] at hrun'
  cases hrun'
  have hdup := OMQ.collated_no_duplication hn (valid_protocol hp) (sorted_input hs) hrun
  refine ⟨c, reached, hf, ?_, ?_, ?_, h2⟩
  · rw [h1, List.pairwise_map]
    refine (ho1.and ho2).imp_of_mem ?_
    rintro a b ha hb ⟨hab, heq⟩
    refine ⟨WithBot.coe_le_coe.1 hab, fun ht => ?_⟩
    rw [← (h3 a ha).1, ← (h3 b hb).1]
    exact heq (by simp [qtime, ht])
  · intro s hs'
    have := hdup.1 s hs'
    rw [input_ops] at this
    convert this using 1
    have hsplit : ofSensor o s reached = (reached.filter (collated o)).filter (fun d => decide (d.sensor = s)) := by
      rw [List.filter_filter]
      unfold ofSensor
      congr 1
      funext d
      rw [Bool.and_comm]
    rw [hsplit, h1, List.filter_map]
    unfold OMQ.emitted
    congr 1
    apply List.filter_congr
    intro x hx
    simp [(h3 x hx).1]
  · intro d hd hc
    have : d ∈ reached.filter (collated o) := List.mem_filter.2 ⟨hd, hc⟩
    rw [h1] at this
    obtain ⟨x, hx, rfl⟩ := List.mem_map.1 this
    rw [← (h3 x hx).1]
    exact hdup.2 x hx

theorem emitted_eq {o : Options} {reached : List (Datum S V)} {outs : List (S × Datum S V)} (h1 : reached.filter (collated o) = outs.map Prod.snd)
    (h3 : ∀ x ∈ outs, x.1 = x.2.sensor ∧ collated o x.2 = true) (s : S) : ofSensor o s reached = OMQ.emitted s outs := by
  have hsplit : ofSensor o s reached = (reached.filter (collated o)).filter (fun d => decide (d.sensor = s)) := by
    rw [List.filter_filter]
    unfold ofSensor
    congr 1
    funext d
    rw [Bool.and_comm]
  rw [hsplit, h1, List.filter_map]
  unfold OMQ.emitted
  congr 1
  apply List.filter_congr
  intro x hx
  simp [(h3 x hx).1]

theorem closes_of_ends {o : Options} {ids : List (Kind × S)} {calls : List (Call S V)} (h : Ends calls) : ∀ s ∈ expected o ids, OMQ.Closes s (calls.flatMap (opsOf o ids)) := by
  have happ : ∀ (s : S) (a b : List (OMQ.Op S (Datum S V))), OMQ.Closes s b → OMQ.Closes s (a ++ b) := by
    intro s a b hb
    induction a with
    | nil => exact hb
    | cons x a ih =>
      cases x with
      | add k d => exact ih
      | finish k => exact Or.inr ih
      | flush => trivial
  intro s hs
  obtain ⟨ds, tail, rfl, ht⟩ := h
  rw [List.flatMap_append]
  apply happ
  rcases ht with ⟨w, rfl⟩ | ⟨w, rfl⟩
  · simp only [List.flatMap_cons, List.flatMap_nil, List.append_nil, opsOf]
    generalize expected o ids = l at hs
    induction l with
    | nil => cases hs
    | cons a l ih =>
      rcases List.mem_cons.1 hs with rfl | hs
      · exact Or.inl rfl
      · exact Or.inr (ih hs)
  · simp [opsOf, OMQ.Closes]

/-- **C90, completeness.** After the end of the trajectory each expected sensor's data has been given, but for a prefix that is older than the first datum of
some expected sensor, and for each sensor with data something was given. -/
theorem feed_complete {o : Options} {ids : List (Kind × S)} {calls : List (Call S V)} (he : Ends calls) (hs : InOrder o ids calls) :
    ∃ c reached, feed o ids calls = some (c, reached) ∧ ∀ s ∈ expected o ids, ∃ dropped, ofSensor o s (added calls) = dropped ++ ofSensor o s reached ∧
      (∀ x ∈ dropped, ∃ s' ∈ expected o ids, ∃ d, (ofSensor o s' (added calls)).head? = some d ∧ x.time < d.time) ∧
      (ofSensor o s (added calls) ≠ [] → ofSensor o s reached ≠ []) := by
  have hp : Protocol calls := by
    obtain ⟨ds, tail, rfl, ht⟩ := he
    exact ⟨ds, tail, rfl, Or.inr ht⟩
  have hn : (expected o ids).Nodup := List.nodup_dedup _
  obtain ⟨c, reached, outs, hf, hrun, h1, h2, h3⟩ := feed_queue hp hs
  obtain ⟨_, hall⟩ := OMQ.collated_no_loss hn (valid_protocol hp) (sorted_input hs) (closes_of_ends he) hrun
  refine ⟨c, reached, hf, fun s hs' => ?_⟩
  obtain ⟨st, hst, hd⟩ := hall s hs'
  rw [input_ops, ← emitted_eq h1 h3] at hd
  rw [input_ops] at hst
  obtain ⟨dropped, hsplit, hold, _⟩ := hd.split
  refine ⟨dropped, hsplit, ?_, hd.some⟩
  intro x hx
  have hne : ofSensor o s (added calls) ≠ [] := by
    rw [hsplit]
    cases dropped with
    | nil => cases hx
    | cons a b => simp
  obtain ⟨⟨s', d, hs1, _, hd1, hd2⟩, _⟩ := hst hne
  dsimp only at hd1
  rw [input_ops] at hd1
  refine ⟨s', hs1, d, hd1, ?_⟩
  have := hold x hx
  rw [← hd2] at this
  exact WithBot.coe_lt_coe.1 this

/-! ### The timers -/

/-- The timer `t` of a sensor was pulsed for exactly these data, in order, each at some wall time. -/
def Pulsed (t : List RateTimer.Event) (ds : List (Datum S V)) : Prop :=
  ∃ ps : List RateTimer.Event, ps.map (·.time) = ds.map (·.time) ∧ t = RateTimer.after window ps

theorem pulsed_pulses {wall : ℤ} {s : S} : ∀ {outs : List (S × Datum S V)} {timers : S → List RateTimer.Event} {ds : List (Datum S V)}, Pulsed (timers s) ds →
    Pulsed (pulses wall timers outs s) (ds ++ (outs.filter fun x => decide (x.1 = s)).map Prod.snd) := by
  intro outs
  induction outs with
  | nil => intro timers ds h; simpa [pulses] using h
  | cons x xs ih =>
    intro timers ds h
    unfold pulses
    by_cases hx : x.1 = s
    · rw [List.filter_cons_of_pos (by simp [hx]), List.map_cons, ← List.singleton_append, ← List.append_assoc]
      apply ih
      obtain ⟨ps, h1, h2⟩ := h
      refine ⟨ps ++ [⟨x.2.time, wall⟩], by simp [h1], ?_⟩
      rw [if_pos hx.symm, h2]
      simp only [RateTimer.after, List.foldl_append, List.foldl_cons, List.foldl_nil]
    · rw [List.filter_cons_of_neg (by simp [hx])]
      apply ih
      rw [if_neg (fun hh => hx hh.symm)]
      exact h

theorem run_timers {o : Options} {ids : List (Kind × S)} {s : S} : ∀ {xs : List (Call S V)} {c c' : Collated S V} {reached : List (Datum S V)} {ds : List (Datum S V)},
    c.run o ids xs = some (c', reached) → Pulsed (c.timers s) ds → ∃ outs, OMQ.run qtraj qtime c.queue (xs.flatMap (opsOf o ids)) = some (c'.queue, outs) ∧
      Pulsed (c'.timers s) (ds ++ OMQ.emitted s outs) := by
  intro xs
  induction xs with
  | nil =>
    intro c c' reached ds h hp
    cases h
    exact ⟨[], rfl, by simpa [OMQ.emitted] using hp⟩
  | cons x xs ih =>
    intro c c' reached ds h hp
    simp only [Collated.run, Option.bind_eq_bind, Option.bind_eq_some_iff, Option.some.injEq, Prod.mk.injEq] at h
    obtain ⟨⟨c1, r1⟩, h1, ⟨c2, r2⟩, h2, rfl, rfl⟩ := h
    have hstep : ∃ outs, OMQ.run qtraj qtime c.queue (opsOf o ids x) = some (c1.queue, outs) ∧ Pulsed (c1.timers s) (ds ++ OMQ.emitted s outs) := by
      obtain ⟨outs, hq, hx⟩ := step_queue h1
      refine ⟨outs, hq, ?_⟩
      rcases hx with ⟨d, w, rfl, hs, rfl, rfl⟩ | ⟨hs, rfl⟩
      · simp only [Collated.step, hs, if_true, Option.some.injEq, Prod.mk.injEq] at h1
        obtain ⟨rfl, _⟩ := h1
        simpa [OMQ.emitted] using hp
      · cases x with
        | data d w =>
          simp only [Collated.step, hs d w rfl, Bool.false_eq_true, if_false, Option.bind_eq_bind, Option.bind_eq_some_iff, Option.some.injEq, Prod.mk.injEq] at h1
          obtain ⟨r, e1, rfl, _⟩ := h1
          have : OMQ.run qtraj qtime c.queue (opsOf o ids (.data d w)) = some (r.1, r.2) := by
            simp [opsOf, hs d w rfl, OMQ.run, OMQ.step, e1]
          rw [hq] at this
          cases this
          exact pulsed_pulses hp
        | finish w =>
          simp only [Collated.step, Option.bind_eq_bind, Option.bind_eq_some_iff, Option.some.injEq, Prod.mk.injEq] at h1
          obtain ⟨⟨rq, ro⟩, e1, rfl, _⟩ := h1
          rw [OMQ.markAll_eq_run] at e1
          simp only [opsOf] at hq
          rw [e1] at hq
          cases hq
          exact pulsed_pulses hp
        | flush w =>
          simp only [Collated.step, Option.bind_eq_bind, Option.bind_eq_some_iff, Option.some.injEq, Prod.mk.injEq] at h1
          obtain ⟨r, e1, rfl, _⟩ := h1
          have : OMQ.run qtraj qtime c.queue (opsOf o ids (.flush w)) = some (r.1, r.2) := by
            simp [opsOf, OMQ.run, OMQ.step, e1]
          rw [hq] at this
          cases this
          exact pulsed_pulses hp
    obtain ⟨o1, q1, p1⟩ := hstep
    obtain ⟨o2, q2, p2⟩ := ih h2 p1
    refine ⟨o1 ++ o2, ?_, ?_⟩
    · rw [List.flatMap_cons, OMQ.run_append, q1, Option.bind_some]
      dsimp only
      rw [q2, Option.map_some]
    · rw [List.append_assoc] at p2
      convert p2 using 2
      simp [OMQ.emitted]

/-- **C90, rates.** The rate timer of each sensor id was pulsed for exactly the collated data of it that has reached the wrapped builder, in order; data that
is not collated is not counted. -/
theorem feed_rates {o : Options} {ids : List (Kind × S)} {calls : List (Call S V)} (hp : Protocol calls) (hs : InOrder o ids calls) :
    ∃ c reached, feed o ids calls = some (c, reached) ∧ ∀ s, Pulsed (c.timers s) (ofSensor o s reached) := by
  obtain ⟨c, reached, outs, hf, hrun, h1, h2, h3⟩ := feed_queue hp hs
  refine ⟨c, reached, hf, fun s => ?_⟩
  unfold feed Collated.init at hf
  rw [Option.bind_eq_some_iff] at hf
  obtain ⟨c0, h0, h4⟩ := hf
  rw [Option.map_eq_some_iff] at h0
  obtain ⟨q0, h0, rfl⟩ := h0
  obtain ⟨outs', hq, hpul⟩ := run_timers (s := s) (ds := []) h4 ⟨[], rfl, rfl⟩
  unfold OMQ.runFrom at hrun
  rw [h0, Option.bind_some, hq] at hrun
  cases hrun
  rw [emitted_eq h1 h3]
  exact hpul

/-! ### Examples and disagreements for the collation -/

/-- A datum for examples. -/
def ex (k : Kind) (s : ℕ) (t : ℤ) : Datum ℕ Unit := ⟨k, s, t, ()⟩

/-- Landmarks that are not collated: sensor 3 has no queue.  The landmark of time 9 overtakes the range data of time 2, which waits for the IMU. -/
example : (feed ⟨false, true⟩ [(.range, 1), (.imu, 2), (.landmark, 3)]
    [.data (ex .range 1 2) 0, .data (ex .landmark 3 9) 0, .data (ex .imu 2 1) 0, .data (ex .imu 2 3) 0, .flush 0]).map Prod.snd =
    some [ex .landmark 3 9, ex .imu 2 1, ex .range 1 2, ex .imu 2 3] := by decide +kernel

/-- **C90, disagreement: one queue for all sensors with one id.** The types of sensors are lost when the queues are made.  Two sensors of different types with
the same id, each of which gives its data in order of time, make a `CHECK` fail. -/
theorem same_id_aborts : feed ⟨true, true⟩ [(.range, 1), (.imu, 1)] [.data (ex .range 1 5) 0, .data (ex .imu 1 4) 0] = none := by decide +kernel

end Verif.Feed
