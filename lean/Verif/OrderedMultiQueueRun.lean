import Verif.OrderedMultiQueueLemmas

/-! Helper lemmas about whole histories of `Verif.OMQ`. -/

namespace Verif.OMQ

set_option linter.unusedSectionVars false

variable {K J D T : Type} [LinearOrder K] [DecidableEq J] [LinearOrder T] [OrderBot T]
variable {traj : K → J} {time : D → T}
variable {reg : K → Prop} {added : K → List D} {fin : K → Bool} {s : State K J D T}
  {outs : List (K × D)} {lim : K × D → K → Prop} {full : Prop}

theorem Valid.congr {reg opn opn' : K → Prop} (ops : List (Op K D)) (h : ∀ k, opn k ↔ opn' k) :
    Valid reg opn ops → Valid reg opn' ops := by
  have : opn = opn' := funext fun k => propext (h k)
  rw [this]; exact id

theorem InvL.congr {added' : K → List D} {fin' : K → Bool} (h : InvL traj time lim full reg added fin s outs)
    (ha : ∀ k, reg k → added' k = added k) (hf : ∀ k, reg k → fin' k = fin k) :
    InvL traj time lim full reg added' fin' s outs := by
  refine ⟨h.keys, h.regq, ?_, ?_, ?_, ?_, ?_, ?_, ?_, ?_, h.outsReg, h.outsSorted, ?_, h.lastB, ?_, h.lastTop⟩
  · intro e he; rw [hf _ (h.regq e he)]; exact h.finq e he
  · intro k hr hk; rw [hf k hr]; exact h.gone k hr hk
  · intro k hr; rw [ha k hr]; exact h.sorted k hr
  · intro e he; rw [ha _ (h.regq e he)]; exact h.suff e he
  · intro k hr; rw [ha k hr]; exact h.noStart k hr
  · intro k st hr; rw [ha k hr, hf k hr]; exact h.content k st hr
  · intro j st hs
    obtain ⟨⟨k, d, a, b, c⟩, h2⟩ := h.startSpec j st hs
    refine ⟨⟨k, d, a, b, by rw [ha k a]; exact c⟩, ?_⟩
    intro k d hr hj hd
    rw [ha k hr] at hd
    exact h2 k d hr hj hd
  · intro k st hr; rw [ha k hr, hf k hr]; exact h.startFin k st hr
  · intro o ho e he; rw [ha _ (h.regq e he), hf _ (h.regq e he)]; exact h.bound o ho e he
  · intro hfull e1 h1 p hp y hy e he
    rw [ha _ (h.regq e1 h1)] at hp
    rw [ha _ (h.regq e he), hf _ (h.regq e he)]
    exact h.consumed hfull e1 h1 p hp y hy e he

/-- No queue is left, or the reported blocker really blocks. -/
def Quiet (traj : K → J) (time : D → T) (s : State K J D T) : Prop :=
  s.queues = [] ∨ ∃ k, s.blocker = some k ∧ BlockedAt traj time s k

theorem Quiet.empty (h : InvL traj time lim full reg added fin s outs) (hq : Quiet traj time s)
    (hall : ∀ k, reg k → fin k = true) : s.queues = [] := by
  rcases hq with hq | ⟨k, _, q, hm, hf, _⟩
  · exact hq
  · have := h.finq _ hm
    rw [hall _ (h.regq _ hm)] at this
    simp only at this
    rw [this] at hf; cases hf

/-- An open queue is present. -/
theorem InvL.mem_of_open (h : InvL traj time lim full reg added fin s outs) {k : K} (hr : reg k)
    (hf : fin k = false) : ∃ q, (k, q) ∈ s.queues ∧ q.finished = false := by
  by_cases hk : k ∈ s.queues.map Prod.fst
  · obtain ⟨⟨k', q⟩, hm, rfl⟩ := List.mem_map.1 hk
    exact ⟨q, hm, (h.finq _ hm).trans hf⟩
  · have := h.gone k hr hk
    rw [hf] at this; cases this

theorem add_spec (h : InvL traj time lim full reg added fin s outs) {k : K} {d : D} (hr : reg k)
    (hf : fin k = false) (hd : ∀ x ∈ added k, time x ≤ time d)
    (hl : ∀ o ∈ outs, lim o k → Le time o (k, d)) :
    ∃ s' new, add traj time s k d = some (s', new) ∧
      InvL traj time lim full reg (fun k' => if k' = k then added k ++ [d] else added k') fin s' (outs ++ new) ∧
      Quiet traj time s' := by
  obtain ⟨q, hm, _⟩ := h.mem_of_open hr hf
  unfold add
  rw [find_of_mem h.keys hm]
  exact dispatch_spec (h.push hm hf hd hl)

theorem add_unknown (h : InvL traj time lim full reg added fin s outs) {k : K} {d : D} (hr : ¬ reg k) :
    add traj time s k d = some (s, []) := by
  unfold add
  rw [find_none_iff.2]
  intro hk
  obtain ⟨e, he, rfl⟩ := List.mem_map.1 hk
  exact hr (h.regq e he)

theorem finish_spec (h : InvL traj time lim full reg added fin s outs) {k : K} (hr : reg k)
    (hf : fin k = false) :
    ∃ s' new, markFinished traj time s k = some (s', new) ∧
      InvL traj time lim full reg added (fun k' => if k' = k then true else fin k') s' (outs ++ new) ∧
      Quiet traj time s' := by
  obtain ⟨q, hm, hqf⟩ := h.mem_of_open hr hf
  unfold markFinished
  rw [find_of_mem h.keys hm]
  simp only [hqf]
  exact dispatch_spec (h.finish hm)

theorem markAll_spec (ks : List K) : ∀ (s : State K J D T) (fin : K → Bool) (outs : List (K × D)),
    InvL traj time lim full reg added fin s outs → ks.Nodup → (∀ k ∈ ks, reg k ∧ fin k = false) →
    ∃ s' new, markAll traj time s ks = some (s', new) ∧
      InvL traj time lim full reg added (fun k' => fin k' || decide (k' ∈ ks)) s' (outs ++ new) ∧
      (ks ≠ [] → Quiet traj time s') ∧ (ks = [] → s' = s) := by
  induction ks with
  | nil =>
    intro s fin outs h _ _
    exact ⟨s, [], rfl, by simpa using h, by simp, by simp⟩
  | cons k ks ih =>
    intro s fin outs h hn hk
    rw [List.nodup_cons] at hn
    obtain ⟨s1, n1, e1, i1, q1⟩ := finish_spec h (hk k List.mem_cons_self).1 (hk k List.mem_cons_self).2
    obtain ⟨s2, n2, e2, i2, q2, q3⟩ := ih s1 _ _ i1 hn.2 (by
      intro k' hk'
      obtain ⟨a, b⟩ := hk k' (List.mem_cons_of_mem _ hk')
      refine ⟨a, ?_⟩
      rw [if_neg]
      · exact b
      · rintro rfl; exact hn.1 hk')
    refine ⟨s2, n1 ++ n2, ?_, ?_, ?_, by simp⟩
    · simp [markAll, e1, e2]
    · rw [List.append_assoc] at i2
      refine i2.congr (fun _ _ => rfl) ?_
      intro k' _
      by_cases hkk : k' = k
      · simp [hkk]
      · simp [hkk]
    · intro _
      by_cases hks : ks = []
      · rw [q3 hks]; exact q1
      · exact q2 hks

theorem flush_spec (h : InvL traj time lim full reg added fin s outs)
    (hempty : (∀ k, reg k → fin k = true) → s.queues = []) :
    ∃ s' new, flush traj time s = some (s', new) ∧
      InvL traj time lim full reg added (fun _ => true) s' (outs ++ new) ∧ s'.queues = [] := by
  unfold flush
  have hnd : ((s.queues.filter (fun e => !e.2.finished)).map Prod.fst).Nodup := by
    have := h.keys.sublist (List.filter_sublist.map Prod.fst (l₁ := s.queues.filter (fun e => !e.2.finished)))
    exact this.imp (fun h => ne_of_lt h)
  have hks : ∀ k ∈ (s.queues.filter (fun e => !e.2.finished)).map Prod.fst, reg k ∧ fin k = false := by
    intro k hk
    obtain ⟨e, he, rfl⟩ := List.mem_map.1 hk
    rw [List.mem_filter] at he
    refine ⟨h.regq e he.1, ?_⟩
    rw [← h.finq e he.1]
    simpa using he.2
  obtain ⟨s', new, e1, i1, q1, q2⟩ := markAll_spec _ s fin outs h hnd hks
  have hall : ∀ k, reg k → (fin k || decide (k ∈ (s.queues.filter (fun e => !e.2.finished)).map Prod.fst)) = true := by
    intro k hr
    cases hf : fin k with
    | true => simp
    | false =>
      obtain ⟨q, hm, hqf⟩ := h.mem_of_open hr hf
      simp only [Bool.false_or, decide_eq_true_eq]
      exact List.mem_map.2 ⟨(k, q), List.mem_filter.2 ⟨hm, by simp [hqf]⟩, rfl⟩
  refine ⟨s', new, e1, i1.congr (fun _ _ => rfl) (fun k hr => (hall k hr).symm), ?_⟩
  by_cases hk : (s.queues.filter (fun e => !e.2.finished)).map Prod.fst = []
  · rw [q2 hk]
    apply hempty
    intro k hr
    have := hall k hr
    rw [hk] at this
    simpa using this
  · exact (q1 hk).empty i1 hall

/-- A whole history. -/
theorem run_spec (ops : List (Op K D)) : ∀ (s : State K J D T) (added : K → List D) (fin : K → Bool)
    (outs : List (K × D)), Inv traj time reg added fin s outs →
    ((∀ k, reg k → fin k = true) → s.queues = []) →
    Valid reg (fun k => reg k ∧ fin k = false) ops →
    (∀ k, reg k → (added k ++ input k ops).Pairwise (fun a b => time a ≤ time b)) →
    ∃ s' new fin', run traj time s ops = some (s', new) ∧
      Inv traj time reg (fun k => added k ++ input k ops) fin' s' (outs ++ new) ∧
      (∀ k, reg k → (fin' k = true ↔ fin k = true ∨ Closes k ops)) ∧
      ((∀ k, reg k → fin' k = true) → s'.queues = []) := by
  induction ops with
  | nil =>
    intro s added fin outs h he _ _
    exact ⟨s, [], fin, rfl, by simpa [input] using h, by simp [Closes], he⟩
  | cons o ops ih =>
    intro s added fin outs h he hv hs
    cases o with
    | add k d =>
      obtain ⟨hk, hv⟩ := hv
      by_cases hr : reg k
      · have hf : fin k = false := by
          rcases hk with hk | hk
          · exact hk.2
          · exact absurd hr hk
        have hd : ∀ x ∈ added k, time x ≤ time d := by
          have := hs k hr
          simp only [input, if_true, List.pairwise_append] at this
          intro x hx
          exact this.2.2 x hx d List.mem_cons_self
        obtain ⟨s1, n1, e1, i1, q1⟩ := add_spec h hr hf hd (fun _ _ hc => hc.elim)
        obtain ⟨s2, n2, fin2, e2, i2, f2, q2⟩ := ih s1 _ fin _ i1 (fun hall => q1.empty i1 hall) hv (by
          intro k' hr'
          have := hs k' hr'
          simp only [input] at this
          by_cases hkk : k' = k
          · subst hkk; simpa using this
          · rw [if_neg hkk]; rw [if_neg (fun hc => hkk hc.symm)] at this; exact this)
        refine ⟨s2, n1 ++ n2, fin2, by simp [run, step, e1, e2], ?_, by simpa [Closes] using f2, q2⟩
        rw [List.append_assoc] at i2
        refine i2.congr ?_ (fun _ _ => rfl)
        intro k' _
        simp only [input]
        by_cases hkk : k' = k
        · subst hkk; simp
        · rw [if_neg hkk, if_neg (fun hc => hkk hc.symm)]
      · have e1 := add_unknown (d := d) h hr
        obtain ⟨s2, n2, fin2, e2, i2, f2, q2⟩ := ih s added fin outs h he hv (by
          intro k' hr'
          have := hs k' hr'
          simp only [input] at this
          rwa [if_neg] at this
          rintro rfl; exact hr hr')
        refine ⟨s2, n2, fin2, by simp [run, step, e1, e2], ?_, by simpa [Closes] using f2, q2⟩
        refine i2.congr ?_ (fun _ _ => rfl)
        intro k' hr'
        simp only [input]
        rw [if_neg]
        rintro rfl; exact hr hr'
    | finish k =>
      obtain ⟨⟨hr, hf⟩, hv⟩ := hv
      obtain ⟨s1, n1, e1, i1, q1⟩ := finish_spec h hr hf
      obtain ⟨s2, n2, fin2, e2, i2, f2, q2⟩ := ih s1 added _ _ i1 (fun hall => q1.empty i1 hall)
        (hv.congr _ (by
          intro k'
          by_cases hkk : k' = k
          · simp [hkk]
          · simp [hkk])) hs
      refine ⟨s2, n1 ++ n2, fin2, by simp [run, step, e1, e2], ?_, ?_, q2⟩
      · rwa [List.append_assoc] at i2
      · intro k' hr'
        rw [f2 k' hr']
        simp only [Closes]
        by_cases hkk : k' = k
        · simp [hkk]
        · have hkk' : k ≠ k' := fun hc => hkk hc.symm
          simp [hkk, hkk']
    | flush =>
      obtain ⟨s1, n1, e1, i1, q1⟩ := flush_spec h he
      obtain ⟨s2, n2, fin2, e2, i2, f2, q2⟩ := ih s1 added _ _ i1 (fun _ => q1)
        (Valid.congr _ (by simp) hv) hs
      refine ⟨s2, n1 ++ n2, fin2, by simp [run, step, e1, e2], ?_, ?_, q2⟩
      · rwa [List.append_assoc] at i2
      · intro k' hr'
        rw [f2 k' hr']
        simp [Closes]

/-! ### Registration -/

theorem insertKey_mem (k : K) (q : Queue D) (qs : List (K × Queue D)) (e : K × Queue D) :
    e ∈ insertKey k q qs ↔ e = (k, q) ∨ e ∈ qs := by
  induction qs with
  | nil => simp [insertKey]
  | cons a rest ih =>
    unfold insertKey
    split
    · simp
    · simp only [List.mem_cons, ih]
      tauto

theorem insertKey_sorted (k : K) (q : Queue D) (qs : List (K × Queue D))
    (hs : (qs.map Prod.fst).Pairwise (· < ·)) (hk : k ∉ qs.map Prod.fst) :
    ((insertKey k q qs).map Prod.fst).Pairwise (· < ·) := by
  induction qs with
  | nil => simp [insertKey]
  | cons a rest ih =>
    rw [List.map_cons, List.pairwise_cons] at hs
    rw [List.map_cons, List.mem_cons, not_or] at hk
    unfold insertKey
    split
    · rename_i hlt
      simp only [List.map_cons, List.pairwise_cons]
      refine ⟨?_, hs⟩
      intro b hb
      rcases List.mem_cons.1 hb with rfl | hb
      · exact hlt
      · exact hlt.trans (hs.1 b hb)
    · rename_i hlt
      simp only [List.map_cons, List.pairwise_cons]
      refine ⟨?_, ih hs.2 hk.2⟩
      intro b hb
      obtain ⟨e, he, rfl⟩ := List.mem_map.1 hb
      rcases (insertKey_mem k q rest e).1 he with rfl | he
      · exact lt_of_le_of_ne (not_lt.1 hlt) (fun hc => hk.1 hc.symm)
      · exact hs.1 _ (List.mem_map_of_mem he)

theorem addQueues_spec (ks : List K) : ∀ (s : State K J D T), (s.queues.map Prod.fst).Pairwise (· < ·) →
    ks.Nodup → (∀ k ∈ ks, k ∉ s.queues.map Prod.fst) →
    ∃ s', addQueues s ks = some s' ∧ s'.last = s.last ∧ s'.start = s.start ∧ s'.blocker = s.blocker ∧
      (s'.queues.map Prod.fst).Pairwise (· < ·) ∧
      (∀ e, e ∈ s'.queues ↔ (e.1 ∈ ks ∧ e.2 = ⟨[], false⟩) ∨ e ∈ s.queues) := by
  induction ks with
  | nil =>
    intro s hs _ _
    exact ⟨s, rfl, rfl, rfl, rfl, hs, by simp⟩
  | cons k ks ih =>
    intro s hs hn hk
    rw [List.nodup_cons] at hn
    have hkn := hk k List.mem_cons_self
    have hf : find k s.queues = none := find_none_iff.2 hkn
    obtain ⟨s', e1, e2, e3, e4, e5, e6⟩ := ih { s with queues := insertKey k ⟨[], false⟩ s.queues }
      (insertKey_sorted k _ _ hs hkn) hn.2 (by
        intro k' hk' hc
        obtain ⟨e, he, rfl⟩ := List.mem_map.1 hc
        rcases (insertKey_mem k _ _ e).1 he with rfl | he
        · exact hn.1 hk'
        · exact hk _ (List.mem_cons_of_mem _ hk') (List.mem_map_of_mem he))
    refine ⟨s', by simp [addQueues, addQueue, hf, e1], e2, e3, e4, e5, ?_⟩
    intro e
    rw [e6, insertKey_mem]
    simp only [List.mem_cons]
    constructor
    · rintro (⟨a, b⟩ | rfl | a)
      · exact Or.inl ⟨Or.inr a, b⟩
      · exact Or.inl ⟨Or.inl rfl, rfl⟩
      · exact Or.inr a
    · rintro (⟨a | a, b⟩ | a)
      · exact Or.inr (Or.inl (Prod.ext a b))
      · exact Or.inl ⟨a, b⟩
      · exact Or.inr (Or.inr a)

theorem init_inv (traj : K → J) (time : D → T) (ks : List K) (hn : ks.Nodup) :
    ∃ s, addQueues (init : State K J D T) ks = some s ∧
      Inv traj time (· ∈ ks) (fun _ => []) (fun _ => false) s [] ∧
      ((∀ k, k ∈ ks → (false : Bool) = true) → s.queues = []) := by
  obtain ⟨s, e1, e2, e3, e4, e5, e6⟩ := addQueues_spec ks (init : State K J D T) (by simp [init]) hn
    (by simp [init])
  have hm : ∀ e, e ∈ s.queues ↔ e.1 ∈ ks ∧ e.2 = ⟨[], false⟩ := by
    intro e; rw [e6]; simp [init]
  refine ⟨s, e1, ⟨e5, fun e he => ((hm e).1 he).1, ?_, ?_, by simp, ?_, ?_, ?_, ?_, ?_, by simp, by simp,
    by simp, Or.inl (by rw [e2]; rfl), ?_, by simp⟩, ?_⟩
  · intro e he; rw [((hm e).1 he).2]
  · intro k hk hc
    exact absurd (List.mem_map.2 ⟨(k, ⟨[], false⟩), (hm _).2 ⟨hk, rfl⟩, rfl⟩) hc
  · intro e he; rw [((hm e).1 he).2]; exact List.suffix_refl _
  · intro k _ _
    refine ⟨rfl, ?_, fun _ => rfl⟩
    intro e he _; rw [((hm e).1 he).2]
  · intro k st _ hs; rw [e3] at hs; cases hs
  · intro j st hs; rw [e3] at hs; cases hs
  · intro k st _ hs; rw [e3] at hs; cases hs
  · intro _ e1 _ p hp y hy
    have : p = [] := by
      cases p with
      | nil => rfl
      | cons a b => cases hp
    rw [this] at hy; cases hy
  · intro hall
    cases hq : s.queues with
    | nil => rfl
    | cons e r =>
      have : e ∈ s.queues := by rw [hq]; exact List.mem_cons_self
      have := hall e.1 ((hm e).1 this).1
      cases this

/-! ### Uniqueness of the delivery order -/

theorem Le.antisymm_key {a b : K × D} (h1 : Le time a b) (h2 : Le time b a) : a.1 = b.1 := by
  rcases h1 with h1 | ⟨h1, h1'⟩ <;> rcases h2 with h2 | ⟨h2, h2'⟩
  · exact absurd (h1.trans h2) (lt_irrefl _)
  · rw [h2] at h1; exact absurd h1 (lt_irrefl _)
  · rw [h1] at h2; exact absurd h2 (lt_irrefl _)
  · exact le_antisymm h1' h2'

theorem mem_of_emitted {o : K × D} {l : List (K × D)} (h : o.2 ∈ emitted o.1 l) : o ∈ l := by
  simp only [emitted, List.mem_map, List.mem_filter] at h
  obtain ⟨e, ⟨he, hk⟩, hs⟩ := h
  have : e = o := Prod.ext (by simpa using hk) hs
  rw [← this]; exact he

theorem sorted_unique (l1 : List (K × D)) : ∀ l2 : List (K × D), l1.Pairwise (Le time) →
    l2.Pairwise (Le time) → (∀ k, emitted k l1 = emitted k l2) → l1 = l2 := by
  induction l1 with
  | nil =>
    intro l2 _ _ h
    cases l2 with
    | nil => rfl
    | cons o r => have := h o.1; simp [emitted] at this
  | cons o r ih =>
    intro l2 h1 h2 h
    cases l2 with
    | nil => have := h o.1; simp [emitted] at this
    | cons o' r' =>
      rw [List.pairwise_cons] at h1 h2
      have hk : o.1 = o'.1 := by
        have m1 : o ∈ o' :: r' := mem_of_emitted (by rw [← h o.1]; simp [emitted])
        have m2 : o' ∈ o :: r := mem_of_emitted (by rw [h o'.1]; simp [emitted])
        rcases List.mem_cons.1 m1 with e | m1
        · rw [e]
        rcases List.mem_cons.1 m2 with e | m2
        · rw [e]
        exact Le.antisymm_key (h1.1 _ m2) (h2.1 _ m1)
      have hd : o = o' := by
        have := h o.1
        simp [emitted, hk] at this
        exact Prod.ext hk this.1
      subst hd
      congr 1
      apply ih r' h1.2 h2.2
      intro k
      have := h k
      simp only [emitted, List.filter_cons] at this
      by_cases hk : o.1 = k
      · simpa [hk, emitted] using this
      · simpa [hk, emitted] using this

/-! ### Blocking -/

theorem iter_blocked (h : Inv traj time reg added fin s outs) {b : K} (hb : BlockedAt traj time s b) :
    ∃ s', iter traj time s = .stop s' ∧ BlockedAt traj time s' b := by
  obtain ⟨q, hm, hf, hq⟩ := hb
  have hsc := scan_ok time s.last s.queues none h.keys (by simp)
  have hncr : (scan time s.last s.queues none).2 ≠ .crash := by
    apply hsc.noCrash
    · intro e he d hd
      rcases h.lastB with hl | ⟨o, ho, hl⟩
      · rw [hl]; exact bot_le
      · rw [hl]; exact ((h.bound o ho e he).1 d hd).time_le
    · simp
  unfold iter
  generalize hr : scan time s.last s.queues none = r at hsc hncr
  obtain ⟨qs, res⟩ := r
  simp only at hsc hncr
  have he := h.erase hsc.sub hsc.erased
  have hmq : (b, q) ∈ qs := by
    by_contra hc
    have := (hsc.erased _ hm hc).2
    simp only at this
    rw [hf] at this; cases this
  cases res with
  | crash => exact absurd rfl hncr
  | blocked k =>
    refine ⟨_, rfl, q, hmq, hf, ?_⟩
    rcases hq with hq | ⟨d, st, h1, h2, h3, h4⟩
    · exact Or.inl hq
    · obtain ⟨q', hq', hd', _⟩ := hsc.blocked k rfl
      obtain ⟨d', tl', h5, _⟩ := h4 _ (hsc.sub.subset hq')
      rw [hd'] at h5; cases h5
  | next best =>
    cases best with
    | none =>
      obtain ⟨_, rfl⟩ := hsc.nextNone rfl
      simp at hmq
    | some c =>
      obtain ⟨k, d⟩ := c
      obtain ⟨hne, hbb, -, hmin⟩ := hsc.nextSome _ rfl
      rcases hbb with hbb | ⟨q', tl, hm', hq'⟩
      · cases hbb
      rcases hq with hq | ⟨d0, st, h1, h2, h3, h4⟩
      · exact absurd hq (hne _ hmq)
      have l1 := hmin _ hmq d0 [] h1
      obtain ⟨d1, tl1, h5, h6⟩ := h4 _ (hsc.sub.subset hm')
      simp only at h5 hq'
      rw [hq'] at h5
      obtain ⟨rfl, rfl⟩ := List.cons.inj h5
      have hk : k = b := Le.antisymm_key l1 h6
      subst hk
      have hqq : q' = q := mem_unique he.keys hm' hmq
      subst hqq
      rw [h1] at hq'
      obtain ⟨rfl, rfl⟩ := List.cons.inj hq'
      have hcs : commonStart traj time s.start (traj k) qs = some st := by simp [commonStart, h2]
      simp only [hcs, find_of_mem he.keys hm', if_neg (not_le.2 h3), h1, hf]
      refine ⟨_, rfl, q', hm', hf, Or.inr ⟨d0, st, h1, by simp, h3, ?_⟩⟩
      intro e hee
      exact h4 e (hsc.sub.subset hee)

theorem dispatch_blocked (h : Inv traj time reg added fin s outs) {b : K}
    (hb : BlockedAt traj time s b) :
    ∃ s', dispatch traj time s = some (s', []) ∧ BlockedAt traj time s' b := by
  obtain ⟨s', e, hb'⟩ := iter_blocked h hb
  exact ⟨s', by simp [dispatch, dispatchFuel, e], hb'⟩

/-- Operations on other queues dispatch nothing and keep `b` blocking. -/
theorem step_blocked (h : Inv traj time reg added fin s outs) {b : K} (hb : BlockedAt traj time s b)
    (o : Op K D) (ho : match o with
      | .add k d => k ≠ b ∧ (∀ x ∈ added k, time x ≤ time d) ∧ ((reg k ∧ fin k = false) ∨ ¬ reg k)
      | .finish k => k ≠ b ∧ reg k ∧ fin k = false
      | .flush => False) :
    ∃ s', step traj time s o = some (s', []) ∧ BlockedAt traj time s' b := by
  obtain ⟨q, hm, hf, hq⟩ := hb
  cases o with
  | add k d =>
    obtain ⟨hkb, hd, hreg⟩ := ho
    rcases hreg with ⟨hr, hfk⟩ | hr
    · obtain ⟨qk, hmk, _⟩ := h.mem_of_open hr hfk
      have hi := h.push hmk hfk hd (fun _ _ hc => hc.elim)
      simp only [step, add, find_of_mem h.keys hmk]
      apply dispatch_blocked hi
      have hset : ∀ e ∈ s.queues, e.1 ≠ k → e ∈ setData k (qk.data ++ [d]) s.queues := by
        intro e he hne
        exact List.mem_map.2 ⟨e, he, if_neg hne⟩
      refine ⟨q, hset _ hm (fun hc => hkb hc.symm), hf, ?_⟩
      rcases hq with hq | ⟨d0, st, h1, h2, h3, h4⟩
      · exact Or.inl hq
      · refine Or.inr ⟨d0, st, h1, h2, h3, ?_⟩
        intro e he
        rcases mem_setData he with ⟨he, _⟩ | ⟨hk, q', hq', e2⟩
        · exact h4 e he
        · obtain ⟨d', tl', h5, h6⟩ := h4 _ hmk
          simp only at h5
          refine ⟨d', tl' ++ [d], ?_, ?_⟩
          · rw [e2, h5]; rfl
          · rw [hk]; exact h6
    · exact ⟨s, by simp [step, add_unknown h hr], q, hm, hf, hq⟩
  | finish k =>
    obtain ⟨hkb, hr, hfk⟩ := ho
    obtain ⟨qk, hmk, hqf⟩ := h.mem_of_open hr hfk
    have hi := h.finish hmk
    simp only [step, markFinished, find_of_mem h.keys hmk, hqf]
    apply dispatch_blocked hi
    refine ⟨q, List.mem_map.2 ⟨(b, q), hm, if_neg (fun hc => hkb hc.symm)⟩, hf, ?_⟩
    rcases hq with hq | ⟨d0, st, h1, h2, h3, h4⟩
    · exact Or.inl hq
    · refine Or.inr ⟨d0, st, h1, h2, h3, ?_⟩
      intro e he
      simp only [setFinished, List.mem_map] at he
      obtain ⟨e', he', rfl⟩ := he
      obtain ⟨d', tl', h5, h6⟩ := h4 _ he'
      refine ⟨d', tl', ?_, ?_⟩
      · split
        · exact h5
        · exact h5
      · split
        · exact h6
        · exact h6
  | flush => exact ho.elim

theorem run_blocked (ops : List (Op K D)) : ∀ (s : State K J D T) (added : K → List D) (fin : K → Bool)
    (outs : List (K × D)) (b : K), Inv traj time reg added fin s outs → BlockedAt traj time s b →
    Avoids b ops → Valid reg (fun k => reg k ∧ fin k = false) ops →
    (∀ k, reg k → (added k ++ input k ops).Pairwise (fun a b => time a ≤ time b)) →
    ∃ s', run traj time s ops = some (s', []) ∧ BlockedAt traj time s' b := by
  induction ops with
  | nil => intro s added fin outs b _ hb _ _ _; exact ⟨s, rfl, hb⟩
  | cons o ops ih =>
    intro s added fin outs b h hb ha hv hs
    cases o with
    | add k d =>
      obtain ⟨hk, hv⟩ := hv
      obtain ⟨hkb, ha⟩ := ha
      by_cases hr : reg k
      · have hf : fin k = false := by
          rcases hk with hk | hk
          · exact hk.2
          · exact absurd hr hk
        have hd : ∀ x ∈ added k, time x ≤ time d := by
          have := hs k hr
          simp only [input, if_true, List.pairwise_append] at this
          intro x hx
          exact this.2.2 x hx d List.mem_cons_self
        obtain ⟨s1, n1, e1, i1, q1⟩ := add_spec h hr hf hd (fun _ _ hc => hc.elim)
        obtain ⟨s1', e1', b1⟩ := step_blocked h hb (.add k d) ⟨hkb, hd, Or.inl ⟨hr, hf⟩⟩
        simp only [step] at e1'
        rw [e1] at e1'
        simp only [Option.some.injEq, Prod.mk.injEq] at e1'
        obtain ⟨rfl, rfl⟩ := e1'
        obtain ⟨s2, e2, b2⟩ := ih s1 _ fin _ b i1 b1 ha hv (by
          intro k' hr'
          have := hs k' hr'
          simp only [input] at this
          by_cases hkk : k' = k
          · subst hkk; simpa using this
          · rw [if_neg hkk]; rw [if_neg (fun hc => hkk hc.symm)] at this; exact this)
        exact ⟨s2, by simp [run, step, e1, e2], b2⟩
      · have e1 := add_unknown (d := d) h hr
        obtain ⟨s2, e2, b2⟩ := ih s added fin outs b h hb ha hv (by
          intro k' hr'
          have := hs k' hr'
          simp only [input] at this
          rwa [if_neg] at this
          rintro rfl; exact hr hr')
        exact ⟨s2, by simp [run, step, e1, e2], b2⟩
    | finish k =>
      obtain ⟨⟨hr, hf⟩, hv⟩ := hv
      obtain ⟨hkb, ha⟩ := ha
      obtain ⟨s1, n1, e1, i1, q1⟩ := finish_spec h hr hf
      obtain ⟨s1', e1', b1⟩ := step_blocked h hb (.finish k) ⟨hkb, hr, hf⟩
      simp only [step] at e1'
      rw [e1] at e1'
      simp only [Option.some.injEq, Prod.mk.injEq] at e1'
      obtain ⟨rfl, rfl⟩ := e1'
      obtain ⟨s2, e2, b2⟩ := ih s1 added _ _ b i1 b1 ha
        (hv.congr _ (by
          intro k'
          by_cases hkk : k' = k
          · simp [hkk]
          · simp [hkk])) hs
      exact ⟨s2, by simp [run, step, e1, e2], b2⟩
    | flush => exact ha.elim

end Verif.OMQ
