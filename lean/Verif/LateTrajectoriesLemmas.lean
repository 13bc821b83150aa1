import Verif.CollatorsLemmas

/-! Helper lemmas for trajectories that are added while others run. -/

namespace Verif.OMQ

set_option linter.unusedSectionVars false

variable {K J D T : Type} [LinearOrder K] [DecidableEq J] [LinearOrder T] [OrderBot T]
variable {traj : K → J} {time : D → T}
variable {reg reg' : K → Prop} {added added' : K → List D} {fin fin' : K → Bool} {s s' : State K J D T}
  {o o' : List (K × D)} {lim lim' : K × D → K → Prop} {full full' : Prop}

/-- With all queues finished, the queues alone deliver what all queues deliver for them. -/
theorem restrict_inv {j : J} (hks : ∀ k, reg' k ↔ reg k ∧ traj k = j) (hin : ∀ k, reg' k → added k = added' k)
    (i : InvL traj time lim full reg added fin s o) (i' : InvL traj time lim' full' reg' added' fin' s' o')
    (hq : s.queues = []) (hq' : s'.queues = []) : o.filter (fun o => traj o.1 = j) = o' := by
  apply sorted_unique _ o' (i.outsSorted.filter _) i'.outsSorted
  intro k
  by_cases hk' : reg' k
  · obtain ⟨hk, hj⟩ := (hks k).1 hk'
    have hem : emitted k (o.filter fun o => traj o.1 = j) = emitted k o := by
      unfold emitted
      rw [List.filter_filter]
      congr 1
      apply List.filter_congr
      intro x _
      by_cases hx : x.1 = k
      · simp [hx, hj]
      · simp [hx]
    rw [hem]
    have n1 : k ∉ s.queues.map Prod.fst := by rw [hq]; simp
    have n2 : k ∉ s'.queues.map Prod.fst := by rw [hq']; simp
    have hstart : ∀ st, IsStart traj time reg added (traj k) st ↔ IsStart traj time reg' added' (traj k) st := by
      intro st
      constructor
      · rintro ⟨⟨k1, d, a, b, c⟩, h2⟩
        have a' : reg' k1 := (hks k1).2 ⟨a, b.trans hj⟩
        refine ⟨⟨k1, d, a', b, by rw [← hin k1 a']; exact c⟩, ?_⟩
        intro k2 d a b c
        exact h2 k2 d ((hks k2).1 a).1 b (by rw [hin k2 a]; exact c)
      · rintro ⟨⟨k1, d, a, b, c⟩, h2⟩
        refine ⟨⟨k1, d, ((hks k1).1 a).1, b, by rw [hin k1 a]; exact c⟩, ?_⟩
        intro k2 d a b c
        have a' : reg' k2 := (hks k2).2 ⟨a, b.trans hj⟩
        exact h2 k2 d a' b (by rw [← hin k2 a']; exact c)
    cases hst : s.start (traj k) with
    | none =>
      obtain ⟨a, _, c⟩ := i.noStart k hk hst
      rw [a]
      cases hst' : s'.start (traj k) with
      | none => rw [(i'.noStart k hk' hst').1]
      | some st' =>
        rw [(i'.content k st' hk' hst').2 n2, ← hin k hk', c n1]; rfl
    | some st =>
      rw [(i.content k st hk hst).2 n1]
      cases hst' : s'.start (traj k) with
      | none =>
        obtain ⟨a, _, c⟩ := i'.noStart k hk' hst'
        rw [a, hin k hk', c n2]; rfl
      | some st' =>
        rw [(i'.content k st' hk' hst').2 n2, hin k hk']
        have := (i.startSpec _ _ hst)
        rw [hstart] at this
        rw [this.unique (i'.startSpec _ _ hst')]
  · have h1 : emitted k (o.filter fun o => traj o.1 = j) = [] := by
      simp only [emitted, List.map_eq_nil_iff, List.filter_eq_nil_iff, decide_eq_true_eq, List.mem_filter]
      rintro a ⟨ha, hj⟩ rfl
      exact hk' ((hks _).2 ⟨i.outsReg a ha, hj⟩)
    have h2 : emitted k o' = [] := by
      simp only [emitted, List.map_eq_nil_iff, List.filter_eq_nil_iff, decide_eq_true_eq]
      rintro a ha rfl; exact hk' (i'.outsReg a ha)
    rw [h1, h2]

theorem emitted_mem_addedL (i : InvL traj time lim full reg added fin s o) {k : K} {st : T} (hr : reg k)
    (hst : s.start (traj k) = some st) : ∃ rest, emitted k o ++ rest = kept time st (added k) := by
  by_cases hk : k ∈ s.queues.map Prod.fst
  · obtain ⟨e, he, rfl⟩ := List.mem_map.1 hk
    have := (i.content e.1 st hr hst).1 e he rfl [] (fun _ => rfl)
    exact ⟨_, by simpa using this⟩
  · exact ⟨[], by simpa using (i.content k st hr hst).2 hk⟩

/-- Merging all queues never delivers more for a trajectory than merging its queues alone. -/
theorem behind_inv {j : J} (hks : ∀ k, reg' k ↔ reg k ∧ traj k = j) (hin : ∀ k, reg' k → added k = added' k) (hfin : ∀ k, reg' k → fin k = fin' k)
    (hlim : ∀ x k, lim x k → traj x.1 ≠ traj k)
    (i : InvL traj time lim full reg added fin s o) (i' : Inv traj time reg' added' fin' s' o')
    (q : (∀ k, reg k → fin k = true) → s.queues = []) (q' : (∀ k, reg' k → fin' k = true) → s'.queues = []) (w' : Waiting traj time s') :
    o.filter (fun o => traj o.1 = j) <+: o' := by
  obtain ⟨t, n, g1, g2, g3⟩ := flush_spec i q
  obtain ⟨t', n', g1', g2', g3'⟩ := flush_spec i' q'
  have hF : (o ++ n).filter (fun o => traj o.1 = j) = o' ++ n' := restrict_inv hks hin g2 g2' g3 g3'
  refine prefix_of_keys ((List.prefix_append o n).filter _) (hF ▸ List.prefix_append o' n') ?_
  intro k
  by_cases hk' : reg' k
  swap
  · have : emitted k (o.filter fun o => traj o.1 = j) = [] := by
      simp only [emitted, List.map_eq_nil_iff, List.filter_eq_nil_iff, decide_eq_true_eq, List.mem_filter]
      rintro a ⟨ha, hj⟩ rfl
      exact hk' ((hks _).2 ⟨i.outsReg a ha, hj⟩)
    rw [this]
    simp
  obtain ⟨hk, hj⟩ := (hks k).1 hk'
  have hem : emitted k (o.filter fun o => traj o.1 = j) = emitted k o := by
    unfold emitted
    rw [List.filter_filter]
    congr 1
    apply List.filter_congr
    intro x _
    by_cases hx : x.1 = k
    · simp [hx, hj]
    · simp [hx]
  rw [hem]
  by_contra hlt
  push Not at hlt
  cases hst : s.start (traj k) with
  | none =>
    rw [(i.noStart k hk hst).1] at hlt
    simp at hlt
  | some st =>
  obtain ⟨rest, hrest⟩ := emitted_mem_addedL i hk hst
  have hstart' : ∀ st', s'.start (traj k) = some st' → st' = st := by
    intro st' h'
    obtain ⟨⟨k1, d1, a1, b1, c1, t1⟩, m1⟩ := i.startSpec _ _ hst
    obtain ⟨⟨k2, d2, a2, b2, c2, t2⟩, m2⟩ := i'.startSpec _ _ h'
    have a1' : reg' k1 := (hks k1).2 ⟨a1, b1.trans hj⟩
    have u1 := m2 k1 d1 a1' b1 (by rw [← hin k1 a1']; exact c1)
    have u2 := m1 k2 d2 ((hks k2).1 a2).1 b2 (by rw [hin k2 a2]; exact c2)
    rw [t1] at u1
    rw [t2] at u2
    exact le_antisymm u2 u1
  -- an item that was delivered by the one and is still held back by the other
  have hx : ∃ q' x, (k, q') ∈ s'.queues ∧ x ∈ q'.data ∧ x ∈ emitted k o := by
    cases hst' : s'.start (traj k) with
    | none =>
      obtain ⟨h1, h2, h3⟩ := i'.noStart k hk' hst'
      cases hem1 : emitted k o with
      | nil => rw [hem1] at hlt; simp at hlt
      | cons x l =>
        have hxa : x ∈ added k := kept_subset st _ x (by rw [← hrest, hem1]; simp)
        by_cases hg : k ∈ s'.queues.map Prod.fst
        · obtain ⟨e, he, rfl⟩ := List.mem_map.1 hg
          exact ⟨e.2, x, he, by rw [h2 e he rfl, ← hin e.1 hk']; exact hxa, by simp⟩
        · have := h3 hg
          rw [hin k hk', this] at hxa
          simp at hxa
    | some st' =>
      have := hstart' st' hst'
      subst this
      by_cases hg : k ∈ s'.queues.map Prod.fst
      · obtain ⟨e, he, rfl⟩ := List.mem_map.1 hg
        have h1 := (i'.content e.1 st' hk' hst').1 e he rfl [] (fun _ => rfl)
        simp only [List.append_nil] at h1
        rw [← hin e.1 hk', ← hrest] at h1
        obtain ⟨c, hc⟩ : emitted e.1 o' <+: emitted e.1 o := by
          refine List.prefix_of_prefix_length_le (l₃ := emitted e.1 o ++ rest) ?_ (List.prefix_append _ _) hlt.le
          rw [← h1]
          exact List.prefix_append _ _
        cases c with
        | nil => rw [← hc] at hlt; simp at hlt
        | cons x c =>
          rw [← hc, List.append_assoc] at h1
          have h2 := List.append_cancel_left h1
          exact ⟨e.2, x, he, kept_subset st' _ x (by rw [h2]; simp), by rw [← hc]; simp⟩
      · have h1 := (i'.content k st' hk' hst').2 hg
        rw [h1, ← hin k hk', ← hrest, List.length_append] at hlt
        omega
  obtain ⟨qk, x, hqk, hxq, hxe⟩ := hx
  have hxo : (k, x) ∈ o := mem_of_emitted hxe
  rcases w' with w' | ⟨b, qb, hqb, hqf, hbl⟩
  · rw [w'] at hqk; simp at hqk
  have hb' : reg' b := i'.regq _ hqb
  obtain ⟨hb, hbj⟩ := (hks b).1 hb'
  have hfb' : fin' b = false := (i'.finq _ hqb).symm.trans hqf
  have hfb : fin b = false := by
    cases hfv : fin b with
    | false => rfl
    | true =>
      rw [hfin b hb', hfb'] at hfv
      cases hfv
  obtain ⟨qs, hqs, _⟩ := i.mem_of_open hb hfb
  obtain ⟨d, hd, hle⟩ := ((i.bound (k, x) hxo _ hqs).2 hfb).resolve_right (fun hl => hlim _ _ hl (hj.trans hbj.symm))
  simp only at hd hle
  rcases hbl with hbl | ⟨d0, st0, hd0, hst0, hlt0, hheads⟩
  · have h1 := (i'.consumed trivial _ hqb (added' b) (by simp only; rw [hbl]; simp) d (by rw [← hin b hb']; exact hd) _ hqk).1 x hxq
    have hkb := Le.antisymm_key hle h1
    simp only at hkb
    subst hkb
    rw [mem_unique i'.keys hqk hqb, hbl] at hxq
    simp at hxq
  · obtain ⟨d', tl', hdt, hle'⟩ := hheads _ hqk
    simp only at hdt hle'
    have hsuff := i'.suff _ hqk
    simp only at hsuff
    have hsort : (qk.data).Pairwise (fun a b => time a ≤ time b) := (i'.sorted k hk').sublist hsuff.sublist
    have hd'x : time d' ≤ time x := by
      rw [hdt] at hxq hsort
      rcases List.mem_cons.1 hxq with rfl | hxq
      · exact le_rfl
      · exact (List.pairwise_cons.1 hsort).1 x hxq
    have h1 : Le time (b, d0) (k, x) := hle'.trans time (Le.of_time_le time hd'x)
    have hdd0 : time d ≤ time d0 := by
      obtain ⟨p, hp⟩ := i'.suff _ hqb
      simp only [hd0] at hp
      have hsb := i'.sorted b hb'
      rw [hin b hb', ← hp] at hd
      rw [← hp, List.pairwise_append] at hsb
      rcases List.mem_append.1 hd with hd | hd
      · exact hsb.2.2 d hd d0 (by simp)
      · rw [List.mem_singleton.1 hd]
    have h2 : Le time (k, x) (b, d0) := hle.trans time (Le.of_time_le time hdd0)
    have hkb := Le.antisymm_key h2 h1
    simp only at hkb
    subst hkb
    have := hstart' st0 hst0
    subst this
    have c0 := (i'.content k st0 hk' hst0).1 _ hqb rfl [] (fun _ => rfl)
    have c1 := (i'.content k st0 hk' hst0).1 _ hqb rfl [d0] (fun h => by rw [hfb'] at h; cases h)
    have c2 := (i.content k st0 hk hst).1 _ hqs rfl [d0] (fun h => by rw [hfb] at h; cases h)
    simp only at c0 c1 c2
    rw [hd0] at c1
    rw [hin k hk', ← c1] at c2
    have hk1 : kept time st0 ([d0] ++ [d0]) = [d0] := by
      simp only [List.singleton_append, kept]
      rw [if_neg]
      rintro (h | h)
      · exact absurd hlt0 (not_lt.2 h)
      · exact absurd hlt0 (not_lt.2 h.le)
    rw [hk1] at c2
    have hne := kept_ne_nil (time := time) st0 (qs.data ++ [d0]) (by simp)
    have hlen := congrArg List.length c2
    simp only [List.length_append, List.length_singleton] at hlen
    have := List.length_pos_of_ne_nil hne
    omega

/-- Less is asked of what was delivered before. -/
theorem InvL.weaken (i : InvL traj time lim full reg added fin s o) (h : ∀ x k, lim x k → lim' x k) : InvL traj time lim' full reg added fin s o :=
  ⟨i.keys, i.regq, i.finq, i.gone, i.sorted, i.suff, i.noStart, i.content, i.startSpec, i.startFin, i.outsReg, i.outsSorted,
    fun x hx e he => ⟨(i.bound x hx e he).1, fun hf => ((i.bound x hx e he).2 hf).imp id (h x e.1)⟩, i.lastB, i.consumed, i.lastTop⟩

/-- The start time of a trajectory without queues is not known. -/
theorem InvL.start_none (i : InvL traj time lim full reg added fin s o) {j : J} (h : ∀ k, reg k → traj k ≠ j) : s.start j = none := by
  cases hs : s.start j with
  | none => rfl
  | some st =>
    obtain ⟨⟨k, d, hr, hj, _⟩, _⟩ := i.startSpec j st hs
    exact absurd hj (h k hr)

/-- Registering queues of a new trajectory keeps the invariant. -/
theorem InvL.register (i : InvL traj time lim False reg added fin s o) {ks : List K} {j : J} (hn : ks.Nodup) (hj : ∀ k ∈ ks, traj k = j)
    (hnew : ∀ k, reg k → traj k ≠ j) (hadd : ∀ k ∈ ks, added k = []) (hfin : ∀ k ∈ ks, fin k = false)
    (hlim : ∀ x ∈ o, ∀ k ∈ ks, lim x k) :
    ∃ s', addQueues s ks = some s' ∧ InvL traj time lim False (fun k => reg k ∨ k ∈ ks) added fin s' o ∧
      (∀ e, e ∈ s'.queues ↔ (e.1 ∈ ks ∧ e.2 = ⟨[], false⟩) ∨ e ∈ s.queues) ∧ s'.last = s.last := by
  have hnotin : ∀ k ∈ ks, k ∉ s.queues.map Prod.fst := by
    intro k hk hc
    obtain ⟨e, he, rfl⟩ := List.mem_map.1 hc
    exact hnew _ (i.regq e he) (hj _ hk)
  obtain ⟨s', e1, e2, e3, e4, e5, e6⟩ := addQueues_spec ks s i.keys hn hnotin
  have hst := i.start_none hnew
  have hold : ∀ k, k ∉ ks → k ∉ s'.queues.map Prod.fst → k ∉ s.queues.map Prod.fst := by
    intro k _ hc hc'
    obtain ⟨e, he, rfl⟩ := List.mem_map.1 hc'
    exact hc (List.mem_map.2 ⟨e, (e6 e).2 (Or.inr he), rfl⟩)
  have hin : ∀ k ∈ ks, k ∈ s'.queues.map Prod.fst := fun k hk => List.mem_map.2 ⟨(k, ⟨[], false⟩), (e6 _).2 (Or.inl ⟨hk, rfl⟩), rfl⟩
  have hkr : ∀ k, reg k → k ∉ ks := fun k hr hk => hnew k hr (hj k hk)
  refine ⟨s', e1, ⟨e5, ?_, ?_, ?_, ?_, ?_, ?_, ?_, ?_, ?_, fun x hx => Or.inl (i.outsReg x hx), i.outsSorted, ?_, by rw [e2]; exact i.lastB, False.elim, by rw [e2]; exact i.lastTop⟩, e6, e2⟩
  · intro e he
    rcases (e6 e).1 he with ⟨h, _⟩ | h
    · exact Or.inr h
    · exact Or.inl (i.regq e h)
  · intro e he
    rcases (e6 e).1 he with ⟨h, h2⟩ | h
    · rw [h2, hfin _ h]
    · exact i.finq e h
  · rintro k (hr | hk) hc
    · exact i.gone k hr (hold k (hkr k hr) hc)
    · exact absurd (hin k hk) hc
  · rintro k (hr | hk)
    · exact i.sorted k hr
    · rw [hadd k hk]; exact List.Pairwise.nil
  · intro e he
    rcases (e6 e).1 he with ⟨h, h2⟩ | h
    · rw [h2]; exact List.nil_suffix
    · exact i.suff e h
  · rintro k (hr | hk) hs
    · obtain ⟨a, b, c⟩ := i.noStart k hr (by rw [← e3]; exact hs)
      refine ⟨a, ?_, fun hc => c (hold k (hkr k hr) hc)⟩
      intro e he hek
      rcases (e6 e).1 he with ⟨h, _⟩ | h
      · exact absurd (hek ▸ h) (hkr k hr)
      · exact b e h hek
    · refine ⟨?_, ?_, fun _ => hadd k hk⟩
      · simp only [emitted, List.map_eq_nil_iff, List.filter_eq_nil_iff, decide_eq_true_eq]
        rintro x hx rfl
        exact hnew _ (i.outsReg x hx) (hj _ hk)
      · intro e he hek
        rcases (e6 e).1 he with ⟨_, h2⟩ | h
        · rw [h2, hadd k hk]
        · exact absurd (hj k hk) (hek ▸ hnew e.1 (i.regq e h))
  · rintro k st (hr | hk) hs
    · obtain ⟨a, b⟩ := i.content k st hr (by rw [← e3]; exact hs)
      refine ⟨?_, fun hc => b (hold k (hkr k hr) hc)⟩
      intro e he hek
      rcases (e6 e).1 he with ⟨h, _⟩ | h
      · exact absurd (hek ▸ h) (hkr k hr)
      · exact a e h hek
    · rw [e3, hj k hk, hst] at hs
      cases hs
  · intro j' st hs
    rw [e3] at hs
    obtain ⟨⟨k, d, a, b, c⟩, h2⟩ := i.startSpec j' st hs
    refine ⟨⟨k, d, Or.inl a, b, c⟩, ?_⟩
    rintro k' d' (hr | hk) b' c'
    · exact h2 k' d' hr b' c'
    · rw [hadd k' hk] at c'; cases c'
  · rintro k st (hr | hk) hs ha
    · exact i.startFin k st hr (by rw [← e3]; exact hs) ha
    · rw [e3, hj k hk, hst] at hs
      cases hs
  · intro x hx e he
    rcases (e6 e).1 he with ⟨h, h2⟩ | h
    · refine ⟨by rw [h2]; simp, fun _ => Or.inr (hlim x hx _ h)⟩
    · exact i.bound x hx e h

/-! ### Doomed queues -/

/-- Some queue begins with data that is older than what was delivered. -/
def Doomed (time : D → T) (s : State K J D T) : Prop :=
  (s.queues.map Prod.fst).Pairwise (· < ·) ∧ ∃ k q d tl, (k, q) ∈ s.queues ∧ q.data = d :: tl ∧ time d < s.last

/-- Some queue has no data and is not finished. -/
def Held (s : State K J D T) : Prop := ∃ e ∈ s.queues, e.2.data = [] ∧ e.2.finished = false

theorem scan_last (last : T) : ∀ (qs : List (K × Queue D)) (best : Option (K × D)), (∀ b ∈ best, last ≤ time b.2) →
    ∀ b, (scan time last qs best).2 = .next (some b) → last ≤ time b.2 := by
  intro qs
  induction qs with
  | nil =>
    intro best h b hb
    simp only [scan, Scan.next.injEq] at hb
    exact h b hb
  | cons e rest ih =>
    intro best h b hb
    obtain ⟨k, q⟩ := e
    simp only [scan] at hb
    cases hq : q.data with
    | nil =>
      simp only [hq] at hb
      by_cases hf : q.finished = true
      · rw [if_pos hf] at hb; exact ih best h b hb
      · rw [if_neg hf] at hb; cases hb
    | cons d tl =>
      simp only [hq] at hb
      by_cases hl : last ≤ time (better time best k d).2
      · rw [if_pos hl] at hb
        refine ih _ ?_ b hb
        intro b' hb'
        cases hb'
        exact hl
      · rw [if_neg hl] at hb; cases hb

theorem dispatch_doomed (h : Doomed time s) : dispatch traj time s = none ∨
    ∃ s', dispatch traj time s = some (s', []) ∧ Doomed time s' ∧ Held s' ∧ s'.queues.Sublist s.queues ∧ ∀ e ∈ s.queues, e ∉ s'.queues → e.2.finished = true := by
  obtain ⟨hk, k, q, d, tl, hm, hq, hlt⟩ := h
  have hsc := scan_ok time s.last s.queues none hk (by simp)
  have hkeep : ∀ qs : List (K × Queue D), (∀ e ∈ s.queues, e ∉ qs → e.2.data = [] ∧ e.2.finished = true) → (k, q) ∈ qs := by
    intro qs he
    by_contra hc
    have := (he _ hm hc).1
    simp only at this
    rw [hq] at this
    cases this
  unfold dispatch dispatchFuel
  cases hit : scan time s.last s.queues none with
  | mk qs r =>
  rw [hit] at hsc
  have hmem := hkeep qs hsc.erased
  cases r with
  | crash => left; simp only [iter, hit]
  | blocked b =>
    right
    refine ⟨{ s with queues := qs, blocker := some b }, by simp only [iter, hit], ⟨hk.sublist (hsc.sub.map _), k, q, d, tl, hmem, hq, hlt⟩, ?_, hsc.sub, fun e he hc => (hsc.erased e he hc).2⟩
    obtain ⟨q', h1, h2, h3⟩ := hsc.blocked b rfl
    exact ⟨_, h1, h2, h3⟩
  | next b =>
    exfalso
    cases b with
    | none =>
      have := (hsc.nextNone rfl).2
      simp only at this
      rw [this] at hmem
      cases hmem
    | some b =>
      obtain ⟨_, _, _, h2⟩ := hsc.nextSome b rfl
      have h3 := (h2 _ hmem d tl hq).time_le
      exact absurd (lt_of_le_of_lt h3 hlt) (not_lt.2 (scan_last s.last s.queues none (by simp) b (by rw [hit])))

/-- The queues that are not finished have these keys. -/
def OpenIn (P : K → Prop) (s : State K J D T) : Prop := ∀ e ∈ s.queues, e.2.finished = false → P e.1

theorem OpenIn.sub {P : K → Prop} (h : OpenIn P s) (hs : s'.queues.Sublist s.queues) : OpenIn P s' := fun e he => h e (hs.subset he)

theorem add_doomed (h : Doomed time s) (k : K) (d : D) {P : K → Prop} (ho : OpenIn P s) (hh : Held s) : add traj time s k d = none ∨
    ∃ s', add traj time s k d = some (s', []) ∧ Doomed time s' ∧ Held s' ∧ OpenIn P s' := by
  unfold add
  cases hf : find k s.queues with
  | none => exact Or.inr ⟨s, rfl, h, hh, ho⟩
  | some q =>
    have hm := mem_of_find hf
    have hd : Doomed time { s with queues := setData k (q.data ++ [d]) s.queues } := by
      obtain ⟨hk, k', q', d', tl, hm', hq, hlt⟩ := h
      refine ⟨by rw [setData_keys]; exact hk, ?_⟩
      by_cases hkk : k' = k
      · subst hkk
        rw [mem_unique hk hm' hm] at hq
        exact ⟨k', { q with data := q.data ++ [d] }, d', tl ++ [d], List.mem_map.2 ⟨_, hm, if_pos rfl⟩, by simp [hq], hlt⟩
      · exact ⟨k', q', d', tl, List.mem_map.2 ⟨_, hm', if_neg hkk⟩, hq, hlt⟩
    rcases dispatch_doomed (traj := traj) hd with h1 | ⟨s', h1, h2, h3, h4, _⟩
    · exact Or.inl h1
    · refine Or.inr ⟨s', h1, h2, h3, OpenIn.sub ?_ h4⟩
      intro e he hfin
      rcases mem_setData he with ⟨he, _⟩ | ⟨hk, q', hq', e2⟩
      · exact ho e he hfin
      · rw [hk]; rw [e2] at hfin; exact ho _ hq' hfin

theorem mark_doomed (h : Doomed time s) (k : K) {P : K → Prop} (ho : OpenIn P s) : markFinished traj time s k = none ∨
    ∃ s', markFinished traj time s k = some (s', []) ∧ Doomed time s' ∧ Held s' ∧ OpenIn (fun k' => P k' ∧ k' ≠ k) s' := by
  unfold markFinished
  cases hf : find k s.queues with
  | none => exact Or.inl rfl
  | some q =>
    by_cases hqf : q.finished = true
    · left; simp only [hqf, if_true]
    · simp only [hqf, if_false]
      have hm := mem_of_find hf
      have hd : Doomed time { s with queues := setFinished k s.queues } := by
        obtain ⟨hk, k', q', d', tl, hm', hq, hlt⟩ := h
        refine ⟨?_, ?_⟩
        · have : (setFinished k s.queues).map Prod.fst = s.queues.map Prod.fst := by
            rw [setFinished, List.map_map]
            apply List.map_congr_left
            intro e _
            simp only [Function.comp]
            split <;> rfl
          simp only [this]
          exact hk
        · by_cases hkk : k' = k
          · subst hkk
            exact ⟨k', { q' with finished := true }, d', tl, List.mem_map.2 ⟨_, hm', if_pos rfl⟩, hq, hlt⟩
          · exact ⟨k', q', d', tl, List.mem_map.2 ⟨_, hm', if_neg hkk⟩, hq, hlt⟩
      rcases dispatch_doomed (traj := traj) hd with h1 | ⟨s', h1, h2, h3, h4, _⟩
      · exact Or.inl (by simpa using h1)
      · refine Or.inr ⟨s', by simpa using h1, h2, h3, OpenIn.sub ?_ h4⟩
        intro e he hfin
        obtain ⟨e', he', rfl⟩ := List.mem_map.1 he
        by_cases hkk : e'.1 = k
        · rw [if_pos hkk] at hfin; cases hfin
        · rw [if_neg hkk] at hfin ⊢; exact ⟨ho _ he' hfin, hkk⟩

theorem markAll_doomed (ks : List K) : ∀ (s : State K J D T) (P : K → Prop), Doomed time s → OpenIn P s → Held s → markAll traj time s ks = none ∨
    ∃ s', markAll traj time s ks = some (s', []) ∧ Doomed time s' ∧ Held s' ∧ OpenIn (fun k' => P k' ∧ k' ∉ ks) s' := by
  induction ks with
  | nil => intro s P h ho hh; exact Or.inr ⟨s, rfl, h, hh, fun e he hf => ⟨ho e he hf, by simp⟩⟩
  | cons k ks ih =>
    intro s P h ho hh
    rcases mark_doomed (traj := traj) h k ho with h1 | ⟨s1, h1, h2, h3, h4⟩
    · left; simp [markAll, h1]
    · rcases ih s1 _ h2 h4 h3 with g1 | ⟨s2, g1, g2, g3, g4⟩
      · left; simp [markAll, h1, g1]
      · refine Or.inr ⟨s2, by simp [markAll, h1, g1], g2, g3, ?_⟩
        intro e he hf
        obtain ⟨⟨a, b⟩, c⟩ := g4 e he hf
        exact ⟨a, by simp [b, c]⟩

theorem flush_doomed (h : Doomed time s) (hh : Held s) : flush traj time s = none := by
  unfold flush
  rcases markAll_doomed (traj := traj) ((s.queues.filter (fun e => !e.2.finished)).map Prod.fst) s (fun k => k ∈ (s.queues.filter (fun e => !e.2.finished)).map Prod.fst) h
    (fun e he hf => List.mem_map.2 ⟨e, List.mem_filter.2 ⟨he, by simp [hf]⟩, rfl⟩) hh with h1 | ⟨s', _, _, ⟨e, he, _, hf⟩, h4⟩
  · exact h1
  · exact absurd (h4 e he hf).1 (h4 e he hf).2

theorem register_doomed (h : Doomed time s) (hh : Held s) {P : K → Prop} (ho : OpenIn P s) {ks : List K} (hn : ks.Nodup) (hnew : ∀ k ∈ ks, k ∉ s.queues.map Prod.fst) :
    ∃ s', addQueues s ks = some s' ∧ Doomed time s' ∧ Held s' ∧ OpenIn (fun k => P k ∨ k ∈ ks) s' := by
  obtain ⟨hk, k', q', d', tl, hm', hq, hlt⟩ := h
  obtain ⟨s', e1, e2, e3, e4, e5, e6⟩ := addQueues_spec ks s hk hn hnew
  refine ⟨s', e1, ⟨e5, k', q', d', tl, (e6 _).2 (Or.inr hm'), hq, by rw [e2]; exact hlt⟩, ?_, ?_⟩
  · obtain ⟨e, he, h1⟩ := hh
    exact ⟨e, (e6 _).2 (Or.inr he), h1⟩
  · intro e he hf
    rcases (e6 e).1 he with ⟨h, _⟩ | h
    · exact Or.inr h
    · exact Or.inl (ho e h hf)

end Verif.OMQ
