import Verif.Collators
import Verif.Props.OrderedMultiQueue

/-! Helper lemmas about the collators. -/

namespace Verif.OMQ

set_option linter.unusedSectionVars false

variable {K J D T : Type} [LinearOrder K] [DecidableEq J] [LinearOrder T] [OrderBot T]
variable {traj : K → J} {time : D → T}

/-- All keys of queues satisfy `P`. -/
def KeysIn (P : K → Prop) (s : State K J D T) : Prop := ∀ e ∈ s.queues, P e.1

theorem scan_keys (P : K → Prop) (last : T) : ∀ (qs : List (K × Queue D)) (best : Option (K × D)), (∀ e ∈ qs, P e.1) → (∀ b ∈ best, P b.1) →
    (∀ e ∈ (scan time last qs best).1, P e.1) ∧ ∀ b, (scan time last qs best).2 = .next (some b) → P b.1 := by
  intro qs
  induction qs with
  | nil =>
    intro best _ h2
    refine ⟨by simp [scan], ?_⟩
    intro b hb
    simp only [scan, Scan.next.injEq] at hb
    exact h2 b hb
  | cons e qs ih =>
    intro best h1 h2
    obtain ⟨k, q⟩ := e
    have hk : P k := h1 (k, q) List.mem_cons_self
    have hr : ∀ e ∈ qs, P e.1 := fun e he => h1 e (List.mem_cons_of_mem _ he)
    unfold scan
    cases hd : q.data with
    | nil =>
      simp only
      split
      · exact ih best hr h2
      · exact ⟨h1, by simp⟩
    | cons d tl =>
      simp only
      have hb : P (better time best k d).1 := by
        unfold better
        cases best with
        | none => exact hk
        | some b =>
          obtain ⟨k', d'⟩ := b
          simp only
          split
          · exact hk
          · exact h2 (k', d') rfl
      split
      · obtain ⟨a, b⟩ := ih (some (better time best k d)) hr (by rintro x hx; cases hx; exact hb)
        refine ⟨?_, b⟩
        intro e he
        rcases List.mem_cons.1 he with rfl | he
        · exact hk
        · exact a e he
      · exact ⟨h1, by simp⟩

theorem setData_keysIn {P : K → Prop} {qs : List (K × Queue D)} (h : ∀ e ∈ qs, P e.1) (k : K) (l : List D) : ∀ e ∈ setData k l qs, P e.1 := by
  intro e he
  obtain ⟨a, ha, rfl⟩ := List.mem_map.1 he
  split
  · exact h a ha
  · exact h a ha

theorem setFinished_keysIn {P : K → Prop} {qs : List (K × Queue D)} (h : ∀ e ∈ qs, P e.1) (k : K) : ∀ e ∈ setFinished k qs, P e.1 := by
  intro e he
  obtain ⟨a, ha, rfl⟩ := List.mem_map.1 he
  split
  · exact h a ha
  · exact h a ha

theorem iter_keys {P : K → Prop} {s : State K J D T} (h : KeysIn P s) :
    (∀ s', iter traj time s = .stop s' → KeysIn P s') ∧ ∀ s' out, iter traj time s = .cont s' out → KeysIn P s' ∧ ∀ o ∈ out, P o.1 := by
  have hs := scan_keys (time := time) P s.last s.queues none h (by simp)
  unfold iter
  split
  · simp
  · rename_i qs k heq
    rw [heq] at hs
    refine ⟨?_, by simp⟩
    intro s' he
    cases he
    exact hs.1
  · rename_i qs heq
    rw [heq] at hs
    split
    · refine ⟨?_, by simp⟩
      intro s' he
      cases he
      exact hs.1
    · simp
  · rename_i qs k d heq
    rw [heq] at hs
    obtain ⟨h1, h2⟩ := hs
    have hk : P k := h2 (k, d) rfl
    simp only at h1
    split
    · simp
    · simp only
      split
      · simp
      · rename_i q hf
        have hp := setData_keysIn h1 k q.data.tail
        split
        · refine ⟨by simp, ?_⟩
          intro s' out he
          cases he
          exact ⟨hp, by rintro o ho; cases ho; exact hk⟩
        · split
          · split
            · refine ⟨by simp, ?_⟩
              intro s' out he
              cases he
              exact ⟨hp, by rintro o ho; cases ho; exact hk⟩
            · refine ⟨?_, by simp⟩
              intro s' he
              cases he
              exact h1
          · split
            · simp
            · split
              · refine ⟨by simp, ?_⟩
                intro s' out he
                cases he
                exact ⟨hp, by rintro o ho; cases ho; exact hk⟩
              · refine ⟨by simp, ?_⟩
                intro s' out he
                cases he
                exact ⟨hp, by simp⟩

theorem dispatchFuel_keys {P : K → Prop} : ∀ (n : Nat) {s s' : State K J D T} {out : List (K × D)}, KeysIn P s → dispatchFuel traj time n s = some (s', out) →
    KeysIn P s' ∧ ∀ o ∈ out, P o.1 := by
  intro n
  induction n with
  | zero => intro s s' out _ h; cases h
  | succ n ih =>
    intro s s' out hk h
    obtain ⟨a, b⟩ := iter_keys (traj := traj) (time := time) hk
    unfold dispatchFuel at h
    split at h
    · cases h
    · rename_i t ht
      cases h
      exact ⟨a _ ht, by simp⟩
    · rename_i t o ht
      obtain ⟨b1, b2⟩ := b _ _ ht
      simp only [Option.map_eq_some_iff, Prod.mk.injEq] at h
      obtain ⟨r, hr, rfl, rfl⟩ := h
      obtain ⟨c1, c2⟩ := ih b1 hr
      refine ⟨c1, ?_⟩
      intro x hx
      rcases List.mem_append.1 hx with hx | hx
      · exact b2 x (by simpa using hx)
      · exact c2 x hx

theorem add_keys {P : K → Prop} {s s' : State K J D T} {out : List (K × D)} (hk : KeysIn P s) {k : K} {d : D} (h : add traj time s k d = some (s', out)) :
    KeysIn P s' ∧ ∀ o ∈ out, P o.1 := by
  unfold add at h
  split at h
  · cases h
    exact ⟨hk, by simp⟩
  · exact dispatchFuel_keys _ (by exact setData_keysIn hk _ _) h

theorem markFinished_keys {P : K → Prop} {s s' : State K J D T} {out : List (K × D)} (hk : KeysIn P s) {k : K} (h : markFinished traj time s k = some (s', out)) :
    KeysIn P s' ∧ ∀ o ∈ out, P o.1 := by
  unfold markFinished at h
  split at h
  · cases h
  · split at h
    · cases h
    · exact dispatchFuel_keys _ (by exact setFinished_keysIn hk _) h

theorem markAll_keys {P : K → Prop} : ∀ (ks : List K) {s s' : State K J D T} {out : List (K × D)}, KeysIn P s → markAll traj time s ks = some (s', out) →
    KeysIn P s' ∧ ∀ o ∈ out, P o.1 := by
  intro ks
  induction ks with
  | nil => intro s s' out hk h; cases h; exact ⟨hk, by simp⟩
  | cons k ks ih =>
    intro s s' out hk h
    simp only [markAll, Option.bind_eq_some_iff, Option.map_eq_some_iff, Prod.mk.injEq] at h
    obtain ⟨r, h1, r', h2, rfl, rfl⟩ := h
    obtain ⟨a, b⟩ := markFinished_keys hk h1
    obtain ⟨c, d⟩ := ih a h2
    refine ⟨c, ?_⟩
    intro o ho
    rcases List.mem_append.1 ho with ho | ho
    · exact b o ho
    · exact d o ho

theorem addQueues_keys {P : K → Prop} : ∀ (ks : List K) {s s' : State K J D T}, KeysIn P s → (∀ k ∈ ks, P k) → addQueues s ks = some s' → KeysIn P s' := by
  intro ks
  induction ks with
  | nil => intro s s' hk _ h; cases h; exact hk
  | cons k ks ih =>
    intro s s' hk hp h
    simp only [addQueues, Option.bind_eq_some_iff] at h
    obtain ⟨t, h1, h2⟩ := h
    refine ih ?_ (fun x hx => hp x (List.mem_cons_of_mem _ hx)) h2
    unfold addQueue at h1
    split at h1
    · cases h1
    · cases h1
      intro e he
      rcases (insertKey_mem k _ _ e).1 he with rfl | he
      · exact hp k List.mem_cons_self
      · exact hk e he

theorem markAll_eq_run (ks : List K) : ∀ s : State K J D T, markAll traj time s ks = run traj time s (ks.map .finish) := by
  induction ks with
  | nil => intro s; rfl
  | cons k ks ih =>
    intro s
    simp only [markAll, List.map_cons, run, step]
    congr 1
    funext r
    rw [ih]

theorem run_append (a b : List (Op K D)) : ∀ s : State K J D T, run traj time s (a ++ b) =
    (run traj time s a).bind fun r => (run traj time r.1 b).map fun r' => (r'.1, r.2 ++ r'.2) := by
  induction a with
  | nil =>
    intro s
    simp only [List.nil_append, run, Option.bind_some]
    cases run traj time s b <;> simp
  | cons o a ih =>
    intro s
    simp only [List.cons_append, run]
    cases step traj time s o with
    | none => rfl
    | some r =>
      simp only [Option.bind_some]
      rw [ih]
      cases run traj time r.1 a with
      | none => rfl
      | some r' =>
        simp only [Option.bind_some, Option.map_some]
        cases run traj time r'.1 b with
        | none => rfl
        | some r'' => simp

/-- Nothing is left, or some queue blocks. -/
def Waiting (traj : K → J) (time : D → T) (s : State K J D T) : Prop := s.queues = [] ∨ ∃ k, BlockedAt traj time s k

theorem Quiet.waiting {s : State K J D T} (h : Quiet traj time s) : Waiting traj time s := by
  rcases h with h | ⟨k, _, h⟩
  · exact Or.inl h
  · exact Or.inr ⟨k, h⟩

/-- After a whole history nothing is left or some queue blocks. -/
theorem run_waiting {reg : K → Prop} (ops : List (Op K D)) : ∀ (s : State K J D T) (added : K → List D) (fin : K → Bool)
    (outs : List (K × D)), Inv traj time reg added fin s outs →
    ((∀ k, reg k → fin k = true) → s.queues = []) → Waiting traj time s →
    Valid reg (fun k => reg k ∧ fin k = false) ops →
    (∀ k, reg k → (added k ++ input k ops).Pairwise (fun a b => time a ≤ time b)) →
    ∃ s' new fin', run traj time s ops = some (s', new) ∧
      Inv traj time reg (fun k => added k ++ input k ops) fin' s' (outs ++ new) ∧
      (∀ k, reg k → (fin' k = true ↔ fin k = true ∨ Closes k ops)) ∧
      ((∀ k, reg k → fin' k = true) → s'.queues = []) ∧ Waiting traj time s' := by
  induction ops with
  | nil =>
    intro s added fin outs h he hw _ _
    exact ⟨s, [], fin, rfl, by simpa [input] using h, by simp [Closes], he, hw⟩
  | cons o ops ih =>
    intro s added fin outs h he hw hv hs
    cases o with
    | add k d =>
      obtain ⟨hk, hv⟩ := hv
      by_cases hr : reg k
      · have hf : fin k = false := by
          rcases hk with hk | hk
          · exact hk.2
          · exact absurd hr hk
        have hd : ∀ x ∈ added k, time x ≤ time d := by
          have := hs k hr
          simp only [input, if_true, List.pairwise_append] at this
          intro x hx
          exact this.2.2 x hx d List.mem_cons_self
        obtain ⟨s1, n1, e1, i1, q1⟩ := add_spec h hr hf hd (fun _ _ hc => hc.elim)
        obtain ⟨s2, n2, fin2, e2, i2, f2, q2, w2⟩ := ih s1 _ fin _ i1 (fun hall => q1.empty i1 hall) q1.waiting hv (by
          intro k' hr'
          have := hs k' hr'
          simp only [input] at this
          by_cases hkk : k' = k
          · subst hkk; simpa using this
          · rw [if_neg hkk]; rw [if_neg (fun hc => hkk hc.symm)] at this; exact this)
        refine ⟨s2, n1 ++ n2, fin2, by simp [run, step, e1, e2], ?_, by simpa [Closes] using f2, q2, w2⟩
        rw [List.append_assoc] at i2
        refine i2.congr ?_ (fun _ _ => rfl)
        intro k' _
        simp only [input]
        by_cases hkk : k' = k
        · subst hkk; simp
        · rw [if_neg hkk, if_neg (fun hc => hkk hc.symm)]
      · have e1 := add_unknown (d := d) h hr
        obtain ⟨s2, n2, fin2, e2, i2, f2, q2, w2⟩ := ih s added fin outs h he hw hv (by
          intro k' hr'
          have := hs k' hr'
          simp only [input] at this
          rwa [if_neg] at this
          rintro rfl; exact hr hr')
        refine ⟨s2, n2, fin2, by simp [run, step, e1, e2], ?_, by simpa [Closes] using f2, q2, w2⟩
        refine i2.congr ?_ (fun _ _ => rfl)
        intro k' hr'
        simp only [input]
        rw [if_neg]
        rintro rfl; exact hr hr'
    | finish k =>
      obtain ⟨⟨hr, hf⟩, hv⟩ := hv
      obtain ⟨s1, n1, e1, i1, q1⟩ := finish_spec h hr hf
      obtain ⟨s2, n2, fin2, e2, i2, f2, q2, w2⟩ := ih s1 added _ _ i1 (fun hall => q1.empty i1 hall) q1.waiting
        (hv.congr _ (by
          intro k'
          by_cases hkk : k' = k
          · simp [hkk]
          · simp [hkk])) hs
      refine ⟨s2, n1 ++ n2, fin2, by simp [run, step, e1, e2], ?_, ?_, q2, w2⟩
      · rwa [List.append_assoc] at i2
      · intro k' hr'
        rw [f2 k' hr']
        simp only [Closes]
        by_cases hkk : k' = k
        · simp [hkk]
        · have hkk' : k ≠ k' := fun hc => hkk hc.symm
          simp [hkk, hkk']
    | flush =>
      obtain ⟨s1, n1, e1, i1, q1⟩ := flush_spec h he
      obtain ⟨s2, n2, fin2, e2, i2, f2, q2, w2⟩ := ih s1 added _ _ i1 (fun _ => q1) (Or.inl q1)
        (Valid.congr _ (by simp) hv) hs
      refine ⟨s2, n1 ++ n2, fin2, by simp [run, step, e1, e2], ?_, ?_, q2, w2⟩
      · rwa [List.append_assoc] at i2
      · intro k' hr'
        rw [f2 k' hr']
        simp [Closes]

/-- Merging the queues of one trajectory alone delivers what merging all queues delivers for it, once all are finished. -/
theorem collation_restrict {ks ks' : List K} {ops ops' : List (Op K D)} {j : J} (hn : ks.Nodup) (hn' : ks'.Nodup) (hks : ∀ k, k ∈ ks' ↔ k ∈ ks ∧ traj k = j)
    (hv : Valid (· ∈ ks) (· ∈ ks) ops) (hv' : Valid (· ∈ ks') (· ∈ ks') ops') (hs : SortedInput time ks ops)
    (hin : ∀ k ∈ ks', input k ops = input k ops') (hall : ∀ k ∈ ks, Closes k ops) (hall' : ∀ k ∈ ks', Closes k ops') :
    ∃ s s' outs, runFrom traj time ks ops = some (s, outs) ∧ runFrom (J := J) traj time ks' ops' = some (s', outs.filter fun o => traj o.1 = j) := by
  have hs' : SortedInput time ks' ops' := by
    intro k hk
    rw [← hin k hk]; exact hs k ((hks k).1 hk).1
  obtain ⟨s, o, fin, e, i, f, q⟩ := runFrom_spec (traj := traj) hn hv hs
  obtain ⟨s', o', fin', e', i', f', q'⟩ := runFrom_spec (traj := traj) hn' hv' hs'
  have hq := q (fun k hk => (f k hk).2 (hall k hk))
  have hq' := q' (fun k hk => (f' k hk).2 (hall' k hk))
  have : o.filter (fun o => traj o.1 = j) = o' := by
    apply sorted_unique _ o' (i.outsSorted.filter _) i'.outsSorted
    intro k
    by_cases hk' : k ∈ ks'
    · obtain ⟨hk, hj⟩ := (hks k).1 hk'
      have hem : emitted k (o.filter fun o => traj o.1 = j) = emitted k o := by
        unfold emitted
        rw [List.filter_filter]
        congr 1
        apply List.filter_congr
        intro x _
        by_cases hx : x.1 = k
        · simp [hx, hj]
        · simp [hx]
      rw [hem]
      have n1 : k ∉ s.queues.map Prod.fst := by rw [hq]; simp
      have n2 : k ∉ s'.queues.map Prod.fst := by rw [hq']; simp
      have hstart : ∀ st, IsStart traj time (· ∈ ks) (fun k => input k ops) (traj k) st ↔ IsStart traj time (· ∈ ks') (fun k => input k ops') (traj k) st := by
        intro st
        constructor
        · rintro ⟨⟨k1, d, a, b, c⟩, h2⟩
          have a' : k1 ∈ ks' := (hks k1).2 ⟨a, b.trans hj⟩
          refine ⟨⟨k1, d, a', b, by simp only at c ⊢; rw [← hin k1 a']; exact c⟩, ?_⟩
          intro k2 d a b c
          exact h2 k2 d ((hks k2).1 a).1 b (by simp only at c ⊢; rw [hin k2 a]; exact c)
        · rintro ⟨⟨k1, d, a, b, c⟩, h2⟩
          refine ⟨⟨k1, d, ((hks k1).1 a).1, b, by simp only at c ⊢; rw [hin k1 a]; exact c⟩, ?_⟩
          intro k2 d a b c
          have a' : k2 ∈ ks' := (hks k2).2 ⟨a, b.trans hj⟩
          exact h2 k2 d a' b (by simp only at c ⊢; rw [← hin k2 a']; exact c)
      cases hst : s.start (traj k) with
      | none =>
        obtain ⟨a, _, c⟩ := i.noStart k hk hst
        rw [a]
        cases hst' : s'.start (traj k) with
        | none => rw [(i'.noStart k hk' hst').1]
        | some st' =>
          rw [(i'.content k st' hk' hst').2 n2, ← hin k hk', c n1]; rfl
      | some st =>
        rw [(i.content k st hk hst).2 n1]
        cases hst' : s'.start (traj k) with
        | none =>
          obtain ⟨a, _, c⟩ := i'.noStart k hk' hst'
          rw [a, hin k hk', c n2]; rfl
        | some st' =>
          rw [(i'.content k st' hk' hst').2 n2, hin k hk']
          have := (i.startSpec _ _ hst)
          rw [hstart] at this
          rw [this.unique (i'.startSpec _ _ hst')]
    · have h1 : emitted k (o.filter fun o => traj o.1 = j) = [] := by
        simp only [emitted, List.map_eq_nil_iff, List.filter_eq_nil_iff, decide_eq_true_eq, List.mem_filter]
        rintro a ⟨ha, hj⟩ rfl
        exact hk' ((hks _).2 ⟨i.outsReg a ha, hj⟩)
      have h2 : emitted k o' = [] := by
        simp only [emitted, List.map_eq_nil_iff, List.filter_eq_nil_iff, decide_eq_true_eq]
        rintro a ha rfl; exact hk' (i'.outsReg a ha)
      rw [h1, h2]
  subst this
  exact ⟨s, s', o, e, e'⟩

theorem runFrom_waiting {ks : List K} {ops : List (Op K D)} (hn : ks.Nodup) (hv : Valid (· ∈ ks) (· ∈ ks) ops) (hs : SortedInput time ks ops) :
    ∃ s new fin, runFrom traj time ks ops = some (s, new) ∧ Inv traj time (· ∈ ks) (fun k => input k ops) fin s new ∧
      (∀ k, k ∈ ks → (fin k = true ↔ Closes k ops)) ∧ ((∀ k, k ∈ ks → fin k = true) → s.queues = []) ∧ Waiting traj time s := by
  obtain ⟨s0, e0, i0, q0⟩ := init_inv traj time ks hn
  have hw : Waiting traj time s0 := by
    cases hq : s0.queues with
    | nil => exact Or.inl hq
    | cons e l =>
      right
      have he : e ∈ s0.queues := by rw [hq]; exact List.mem_cons_self
      refine ⟨e.1, e.2, he, i0.finq e he, Or.inl ?_⟩
      have := i0.suff e he
      simpa using this
  obtain ⟨s, new, fin, e1, i1, f1, q1, w1⟩ := run_waiting ops s0 _ _ [] i0 q0 hw (hv.congr _ (by simp)) (by simpa [SortedInput] using hs)
  exact ⟨s, new, fin, by simp [runFrom, e0, e1], by simpa using i1, by simpa using f1, q1, w1⟩

theorem kept_ne_nil (st : T) : ∀ l : List D, l ≠ [] → kept time st l ≠ []
  | [], h => absurd rfl h
  | [x], _ => by simp [kept]
  | x :: y :: r, _ => by
    unfold kept
    split
    · simp
    · exact kept_ne_nil st (y :: r) (by simp)

theorem kept_subset (st : T) : ∀ l : List D, ∀ x ∈ kept time st l, x ∈ l
  | [], x, h => by simp [kept] at h
  | [y], x, h => by simpa [kept] using h
  | y :: z :: r, x, h => by
    unfold kept at h
    split at h
    · rcases List.mem_cons.1 h with rfl | h
      · exact List.mem_cons_self
      · exact List.mem_cons_of_mem _ (kept_subset st (z :: r) x h)
    · exact List.mem_cons_of_mem _ (kept_subset st (z :: r) x h)

/-- A list of deliveries with fewer items by key is a prefix, if both are parts from the front of one list. -/
theorem prefix_of_keys {a b f : List (K × D)} (ha : a <+: f) (hb : b <+: f) (h : ∀ k, (emitted k a).length ≤ (emitted k b).length) : a <+: b := by
  rcases List.prefix_or_prefix_of_prefix ha hb with h1 | ⟨t, rfl⟩
  · exact h1
  · cases t with
    | nil => simp
    | cons o t =>
      have := h o.1
      rw [emitted_append] at this
      simp [emitted] at this

theorem Valid.append_flush {reg opn : K → Prop} (ops : List (Op K D)) (h : Valid reg opn ops) : Valid reg opn (ops ++ [.flush]) := by
  induction ops generalizing opn with
  | nil => simp [Valid]
  | cons o ops ih =>
    cases o with
    | add k d => exact ⟨h.1, ih h.2⟩
    | finish k => exact ⟨h.1, ih h.2⟩
    | flush => exact ih h

theorem closes_append_flush (k : K) (ops : List (Op K D)) : Closes k (ops ++ [.flush]) := by
  induction ops with
  | nil => simp [Closes]
  | cons o ops ih => cases o <;> simp [Closes, ih]

theorem input_append_flush (k : K) (ops : List (Op K D)) : input k (ops ++ [.flush]) = input k ops := by
  rw [input_append]
  simp [input]

theorem runFrom_prefix {ks : List K} {a b : List (Op K D)} {s s' : State K J D T} {o o' : List (K × D)} (h : runFrom traj time ks a = some (s, o)) (h' : runFrom traj time ks (a ++ b) = some (s', o')) :
    o <+: o' := by
  unfold runFrom at h h'
  obtain ⟨s0, e0, e1⟩ := Option.bind_eq_some_iff.1 h
  rw [e0, Option.bind_some, run_append, e1, Option.bind_some] at h'
  obtain ⟨r, _, hr⟩ := Option.map_eq_some_iff.1 h'
  cases hr
  exact List.prefix_append _ _

theorem emitted_mem_added {reg : K → Prop} {added : K → List D} {fin : K → Bool} {s : State K J D T} {outs : List (K × D)} (i : Inv traj time reg added fin s outs) {k : K} {st : T} (hr : reg k)
    (hst : s.start (traj k) = some st) : ∃ rest, emitted k outs ++ rest = kept time st (added k) := by
  by_cases hk : k ∈ s.queues.map Prod.fst
  · obtain ⟨e, he, rfl⟩ := List.mem_map.1 hk
    have := (i.content e.1 st hr hst).1 e he rfl [] (fun _ => rfl)
    exact ⟨_, by simpa using this⟩
  · exact ⟨[], by simpa using (i.content k st hr hst).2 hk⟩

/-- Merging all queues never delivers more for a trajectory than merging its queues alone. -/
theorem never_ahead {ks ks' : List K} {ops ops' : List (Op K D)} {j : J} (hn : ks.Nodup) (hn' : ks'.Nodup) (hks : ∀ k, k ∈ ks' ↔ k ∈ ks ∧ traj k = j)
    (hv : Valid (· ∈ ks) (· ∈ ks) ops) (hv' : Valid (· ∈ ks') (· ∈ ks') ops') (hs : SortedInput time ks ops)
    (hin : ∀ k ∈ ks', input k ops = input k ops') (hcl : ∀ k ∈ ks', Closes k ops ↔ Closes k ops') :
    ∃ s s' outs outs', runFrom traj time ks ops = some (s, outs) ∧ runFrom (J := J) traj time ks' ops' = some (s', outs') ∧
      outs.filter (fun o => traj o.1 = j) <+: outs' := by
  have hs' : SortedInput time ks' ops' := by
    intro k hk
    rw [← hin k hk]; exact hs k ((hks k).1 hk).1
  obtain ⟨s, o, fin, e, i, f, q⟩ := runFrom_spec (traj := traj) hn hv hs
  obtain ⟨s', o', fin', e', i', f', q', w'⟩ := runFrom_waiting (traj := traj) hn' hv' hs'
  refine ⟨s, s', o, o', e, e', ?_⟩
  obtain ⟨t, t', F, g1, g2⟩ := collation_restrict (j := j) hn hn' hks hv.append_flush hv'.append_flush
    (fun k hk => by rw [input_append_flush]; exact hs k hk) (fun k hk => by rw [input_append_flush, input_append_flush]; exact hin k hk)
    (fun k _ => closes_append_flush k ops) (fun k _ => closes_append_flush k ops')
  refine prefix_of_keys ((runFrom_prefix e g1).filter _) (runFrom_prefix e' g2) ?_
  intro k
  by_cases hk' : k ∈ ks'
  swap
  · have : emitted k (o.filter fun o => traj o.1 = j) = [] := by
      simp only [emitted, List.map_eq_nil_iff, List.filter_eq_nil_iff, decide_eq_true_eq, List.mem_filter]
      rintro a ⟨ha, hj⟩ rfl
      exact hk' ((hks _).2 ⟨i.outsReg a ha, hj⟩)
    rw [this]
    simp
  obtain ⟨hk, hj⟩ := (hks k).1 hk'
  have hem : emitted k (o.filter fun o => traj o.1 = j) = emitted k o := by
    unfold emitted
    rw [List.filter_filter]
    congr 1
    apply List.filter_congr
    intro x _
    by_cases hx : x.1 = k
    · simp [hx, hj]
    · simp [hx]
  rw [hem]
  by_contra hlt
  push Not at hlt
  cases hst : s.start (traj k) with
  | none =>
    rw [(i.noStart k hk hst).1] at hlt
    simp at hlt
  | some st =>
  obtain ⟨rest, hrest⟩ := emitted_mem_added i hk hst
  have hstart' : ∀ st', s'.start (traj k) = some st' → st' = st := by
    intro st' h'
    obtain ⟨⟨k1, d1, a1, b1, c1, t1⟩, m1⟩ := i.startSpec _ _ hst
    obtain ⟨⟨k2, d2, a2, b2, c2, t2⟩, m2⟩ := i'.startSpec _ _ h'
    have a1' : k1 ∈ ks' := (hks k1).2 ⟨a1, b1.trans hj⟩
    have u1 := m2 k1 d1 a1' b1 (by simp only at c1 ⊢; rw [← hin k1 a1']; exact c1)
    have u2 := m1 k2 d2 ((hks k2).1 a2).1 b2 (by simp only at c2 ⊢; rw [hin k2 a2]; exact c2)
    rw [t1] at u1
    rw [t2] at u2
    exact le_antisymm u2 u1
  -- an item that was delivered by the one and is still held back by the other
  have hx : ∃ q' x, (k, q') ∈ s'.queues ∧ x ∈ q'.data ∧ x ∈ emitted k o := by
    cases hst' : s'.start (traj k) with
    | none =>
      obtain ⟨h1, h2, h3⟩ := i'.noStart k hk' hst'
      cases hem1 : emitted k o with
      | nil => rw [hem1] at hlt; simp at hlt
      | cons x l =>
        have hxa : x ∈ input k ops := kept_subset st _ x (by rw [← hrest, hem1]; simp)
        by_cases hg : k ∈ s'.queues.map Prod.fst
        · obtain ⟨e, he, rfl⟩ := List.mem_map.1 hg
          exact ⟨e.2, x, he, by rw [h2 e he rfl, ← hin e.1 hk']; exact hxa, by simp⟩
        · have := h3 hg
          rw [hin k hk', this] at hxa
          simp at hxa
    | some st' =>
      have := hstart' st' hst'
      subst this
      by_cases hg : k ∈ s'.queues.map Prod.fst
      · obtain ⟨e, he, rfl⟩ := List.mem_map.1 hg
        have h1 := (i'.content e.1 st' hk' hst').1 e he rfl [] (fun _ => rfl)
        simp only [List.append_nil] at h1
        rw [← hin e.1 hk', ← hrest] at h1
        obtain ⟨c, hc⟩ : emitted e.1 o' <+: emitted e.1 o := by
          refine List.prefix_of_prefix_length_le (l₃ := emitted e.1 o ++ rest) ?_ (List.prefix_append _ _) hlt.le
          rw [← h1]
          exact List.prefix_append _ _
        cases c with
        | nil => rw [← hc] at hlt; simp at hlt
        | cons x c =>
          rw [← hc, List.append_assoc] at h1
          have h2 := List.append_cancel_left h1
          exact ⟨e.2, x, he, kept_subset st' _ x (by rw [h2]; simp), by rw [← hc]; simp⟩
      · have h1 := (i'.content k st' hk' hst').2 hg
        rw [h1, ← hin k hk', ← hrest, List.length_append] at hlt
        omega
  obtain ⟨qk, x, hqk, hxq, hxe⟩ := hx
  have hxo : (k, x) ∈ o := mem_of_emitted hxe
  rcases w' with w' | ⟨b, qb, hqb, hqf, hbl⟩
  · rw [w'] at hqk; simp at hqk
  have hb' : b ∈ ks' := i'.regq _ hqb
  obtain ⟨hb, hbj⟩ := (hks b).1 hb'
  have hfb' : fin' b = false := (i'.finq _ hqb).symm.trans hqf
  have hfb : fin b = false := by
    cases hfv : fin b with
    | false => rfl
    | true =>
      have := (f' b hb').2 ((hcl b hb').1 ((f b hb).1 hfv))
      rw [hfb'] at this
      cases this
  obtain ⟨qs, hqs, _⟩ := i.mem_of_open hb hfb
  obtain ⟨d, hd, hle⟩ := ((i.bound (k, x) hxo _ hqs).2 hfb).resolve_right id
  simp only at hd hle
  rcases hbl with hbl | ⟨d0, st0, hd0, hst0, hlt0, hheads⟩
  · have h1 := (i'.consumed trivial _ hqb (input b ops') (by simp only; rw [hbl]; simp) d (by rw [← hin b hb']; exact hd) _ hqk).1 x hxq
    have hkb := Le.antisymm_key hle h1
    simp only at hkb
    subst hkb
    rw [mem_unique i'.keys hqk hqb, hbl] at hxq
    simp at hxq
  · obtain ⟨d', tl', hdt, hle'⟩ := hheads _ hqk
    simp only at hdt hle'
    have hsuff := i'.suff _ hqk
    simp only at hsuff
    have hsort : (qk.data).Pairwise (fun a b => time a ≤ time b) := (i'.sorted k hk').sublist hsuff.sublist
    have hd'x : time d' ≤ time x := by
      rw [hdt] at hxq hsort
      rcases List.mem_cons.1 hxq with rfl | hxq
      · exact le_rfl
      · exact (List.pairwise_cons.1 hsort).1 x hxq
    have h1 : Le time (b, d0) (k, x) := hle'.trans time (Le.of_time_le time hd'x)
    have hdd0 : time d ≤ time d0 := by
      obtain ⟨p, hp⟩ := i'.suff _ hqb
      simp only [hd0] at hp
      have hsb := i'.sorted b hb'
      rw [hin b hb', ← hp] at hd
      rw [← hp, List.pairwise_append] at hsb
      rcases List.mem_append.1 hd with hd | hd
      · exact hsb.2.2 d hd d0 (by simp)
      · rw [List.mem_singleton.1 hd]
    have h2 : Le time (k, x) (b, d0) := hle.trans time (Le.of_time_le time hdd0)
    have hkb := Le.antisymm_key h2 h1
    simp only at hkb
    subst hkb
    have := hstart' st0 hst0
    subst this
    have c0 := (i'.content k st0 hk' hst0).1 _ hqb rfl [] (fun _ => rfl)
    have c1 := (i'.content k st0 hk' hst0).1 _ hqb rfl [d0] (fun h => by rw [hfb'] at h; cases h)
    have c2 := (i.content k st0 hk hst).1 _ hqs rfl [d0] (fun h => by rw [hfb] at h; cases h)
    simp only at c0 c1 c2
    rw [hd0] at c1
    rw [hin k hk', ← c1] at c2
    have hk1 : kept time st0 ([d0] ++ [d0]) = [d0] := by
      simp only [List.singleton_append, kept]
      rw [if_neg]
      rintro (h | h)
      · exact absurd hlt0 (not_lt.2 h)
      · exact absurd hlt0 (not_lt.2 h.le)
    rw [hk1] at c2
    have hne := kept_ne_nil (time := time) st0 (qs.data ++ [d0]) (by simp)
    have hlen := congrArg List.length c2
    simp only [List.length_append, List.length_singleton] at hlen
    have := List.length_pos_of_ne_nil hne
    omega

end Verif.OMQ
