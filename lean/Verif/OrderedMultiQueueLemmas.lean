import Verif.OrderedMultiQueue
import Verif.OrderedMultiQueueSpec
import Mathlib.Order.Lattice
import Mathlib.Tactic.Linarith
import Mathlib.Data.List.Basic

/-! Helper lemmas for `Verif.OMQ`. -/

namespace Verif.OMQ

set_option linter.unusedSectionVars false

variable {K J D T : Type} [LinearOrder K] [DecidableEq J] [LinearOrder T] [OrderBot T]
variable (traj : K → J) (time : D → T)

/-! ### Basic lemmas -/

omit [OrderBot T] in
theorem Le.trans {a b c : K × D} (h1 : Le time a b) (h2 : Le time b c) : Le time a c := by
  rcases h1 with h1 | ⟨h1, h1'⟩ <;> rcases h2 with h2 | ⟨h2, h2'⟩
  · exact Or.inl (h1.trans h2)
  · exact Or.inl (h2 ▸ h1)
  · exact Or.inl (h1 ▸ h2)
  · exact Or.inr ⟨h1.trans h2, h1'.trans h2'⟩

omit [OrderBot T] in
theorem Le.refl (a : K × D) : Le time a a := Or.inr ⟨rfl, le_refl _⟩

omit [OrderBot T] in
theorem Le.time_le {a b : K × D} (h : Le time a b) : time a.2 ≤ time b.2 := by
  rcases h with h | ⟨h, _⟩
  · exact h.le
  · exact h.le

omit [OrderBot T] in
/-- Later items of the same key are later in delivery order. -/
theorem Le.of_time_le {k : K} {x y : D} (h : time x ≤ time y) : Le time (k, x) (k, y) := by
  rcases h.lt_or_eq with h | h
  · exact Or.inl h
  · exact Or.inr ⟨h, le_refl _⟩

omit [LinearOrder K] [DecidableEq J] [LinearOrder T] [OrderBot T] in
variable [LinearOrder K] in
theorem emitted_append (k : K) (a b : List (K × D)) :
    emitted k (a ++ b) = emitted k a ++ emitted k b := by
  simp [emitted]

/-! ### The scan -/

/-- What a scan returns. -/
structure ScanOk (last : T) (qs : List (K × Queue D)) (best : Option (K × D))
    (qs' : List (K × Queue D)) (r : Scan K D) : Prop where
  sub : qs'.Sublist qs
  erased : ∀ e ∈ qs, e ∉ qs' → e.2.data = [] ∧ e.2.finished = true
  blocked : ∀ k, r = .blocked k → ∃ q, (k, q) ∈ qs' ∧ q.data = [] ∧ q.finished = false
  nextNone : r = .next none → best = none ∧ qs' = []
  nextSome : ∀ b, r = .next (some b) →
    (∀ e ∈ qs', e.2.data ≠ []) ∧
    (best = some b ∨ ∃ q tl, (b.1, q) ∈ qs' ∧ q.data = b.2 :: tl) ∧
    (∀ c, best = some c → Le time b c) ∧
    (∀ e ∈ qs', ∀ d tl, e.2.data = d :: tl → Le time b (e.1, d))
  noCrash : (∀ e ∈ qs, ∀ d ∈ e.2.data, last ≤ time d) → (∀ c, best = some c → last ≤ time c.2) →
    r ≠ .crash

omit [OrderBot T] in
theorem scan_ok (last : T) (qs : List (K × Queue D)) :
    ∀ best : Option (K × D), (qs.map Prod.fst).Pairwise (· < ·) →
      (∀ c, best = some c → ∀ e ∈ qs, c.1 < e.1) →
      ScanOk time last qs best (scan time last qs best).1 (scan time last qs best).2 := by
  induction qs with
  | nil =>
    intro best _ _
    simp only [scan]
    refine ⟨List.Sublist.refl _, by simp, by simp, by simp, ?_, by simp⟩
    intro b hb
    simp only [Scan.next.injEq] at hb
    subst hb
    refine ⟨by simp, Or.inl rfl, ?_, by simp⟩
    intro c hc; cases hc; exact Le.refl time _
  | cons e rest ih =>
    obtain ⟨k, q⟩ := e
    intro best hs hb
    rw [List.map_cons, List.pairwise_cons] at hs
    unfold scan
    cases hq : q.data with
    | nil =>
      by_cases hf : q.finished = true
      · simp only [hf, if_true]
        have := ih best hs.2 (fun c hc e he => hb c hc e (List.mem_cons_of_mem _ he))
        refine ⟨this.sub.trans (List.sublist_cons_self _ _), ?_, this.blocked, this.nextNone, this.nextSome, ?_⟩
        · intro e he hn
          rcases List.mem_cons.1 he with rfl | he
          · exact ⟨hq, hf⟩
          · exact this.erased e he hn
        · intro h1 h2
          exact this.noCrash (fun e he => h1 e (List.mem_cons_of_mem _ he)) h2
      · simp only [hf]
        refine ⟨List.Sublist.refl _, fun e he hn => absurd he hn, ?_, by simp, by simp, by simp⟩
        intro k' hk'
        simp only [Bool.false_eq_true, if_false, Scan.blocked.injEq] at hk'
        subst hk'
        exact ⟨q, List.mem_cons_self, hq, by simpa using hf⟩
    | cons d tl =>
      simp only
      have hbest : Le time (better time best k d) (k, d) ∧
          (∀ c, best = some c → Le time (better time best k d) c) ∧
          (best = some (better time best k d) ∨ better time best k d = (k, d)) ∧
          (∀ e ∈ rest, (better time best k d).1 < e.1) := by
        have hk : ∀ e ∈ rest, k < e.1 := fun e he => hs.1 e.1 (List.mem_map_of_mem he)
        cases hbb : best with
        | none =>
          simp only [better]
          exact ⟨Le.refl time _, by simp, by simp, hk⟩
        | some c =>
          have hck : c.1 < k := hb c hbb (k, q) List.mem_cons_self
          simp only [better]
          split
          · rename_i hlt
            refine ⟨Le.refl time _, ?_, Or.inr rfl, hk⟩
            intro c' hc'
            simp only [Option.some.injEq] at hc'; subst hc'
            exact Or.inl hlt
          · rename_i hlt
            rw [not_lt] at hlt
            refine ⟨?_, ?_, Or.inl rfl, fun e he => hck.trans (hk e he)⟩
            · rcases hlt.lt_or_eq with h | h
              · exact Or.inl h
              · exact Or.inr ⟨h, hck.le⟩
            · intro c' hc'
              simp only [Option.some.injEq] at hc'; subst hc'
              exact Le.refl time _
      obtain ⟨hb1, hb2, hb3, hb4⟩ := hbest
      have hih := ih (some (better time best k d)) hs.2
        (by intro c hc; cases hc; exact hb4)
      split
      · rename_i hle
        refine ⟨hih.sub.cons_cons _, ?_, ?_, ?_, ?_, ?_⟩
        · intro e he hn
          rcases List.mem_cons.1 he with rfl | he
          · simp at hn
          · exact hih.erased e he (fun h => hn (List.mem_cons_of_mem _ h))
        · intro k' hk'
          obtain ⟨q', h1, h2⟩ := hih.blocked k' hk'
          exact ⟨q', List.mem_cons_of_mem _ h1, h2⟩
        · intro h
          exact absurd (hih.nextNone h).1 (by simp)
        · intro b h
          obtain ⟨n1, n2, n3, n4⟩ := hih.nextSome b h
          refine ⟨?_, ?_, ?_, ?_⟩
          · intro e he
            rcases List.mem_cons.1 he with rfl | he
            · simp [hq]
            · exact n1 e he
          · rcases n2 with n2 | ⟨q', tl', h1, h2⟩
            · simp only [Option.some.injEq] at n2
              rw [n2] at hb3
              rcases hb3 with hb3 | hb3
              · exact Or.inl hb3
              · refine Or.inr ⟨q, tl, ?_, ?_⟩
                · rw [hb3]; exact List.mem_cons_self
                · rw [hb3]; exact hq
            · exact Or.inr ⟨q', tl', List.mem_cons_of_mem _ h1, h2⟩
          · intro c hc
            exact (n3 _ rfl).trans time (hb2 c hc)
          · intro e he d' tl' hd'
            rcases List.mem_cons.1 he with rfl | he
            · simp only [hq, List.cons.injEq] at hd'
              rw [← hd'.1]
              exact (n3 _ rfl).trans time hb1
            · exact n4 e he d' tl' hd'
        · intro h1 h2
          exact hih.noCrash (fun e he => h1 e (List.mem_cons_of_mem _ he))
            (by intro c hc; cases hc; exact hle)
      · rename_i hle
        refine ⟨List.Sublist.refl _, fun e he hn => absurd he hn, by simp, by simp, by simp, ?_⟩
        intro h1 h2
        exfalso
        apply hle
        rcases hb3 with hb3 | hb3
        · exact h2 _ hb3
        · rw [hb3]; exact h1 (k, q) List.mem_cons_self d (by simp [hq])

/-! ### Maps -/

omit [LinearOrder T] [OrderBot T] [DecidableEq J] in
theorem find_of_mem {k : K} {q : Queue D} {qs : List (K × Queue D)}
    (hs : (qs.map Prod.fst).Pairwise (· < ·)) (h : (k, q) ∈ qs) : find k qs = some q := by
  induction qs with
  | nil => simp at h
  | cons e rest ih =>
    rw [List.map_cons, List.pairwise_cons] at hs
    rcases List.mem_cons.1 h with rfl | h
    · simp [find]
    · have : e.1 ≠ k := ne_of_lt (hs.1 k (List.mem_map_of_mem (f := Prod.fst) h))
      have := ih hs.2 h
      simp only [find] at this ⊢
      rw [List.find?_cons_of_neg (by simpa using ‹e.1 ≠ k›)]
      exact this

omit [LinearOrder T] [OrderBot T] [DecidableEq J] in
theorem mem_of_find {k : K} {q : Queue D} {qs : List (K × Queue D)} (h : find k qs = some q) :
    (k, q) ∈ qs := by
  simp only [find, Option.map_eq_some_iff] at h
  obtain ⟨e, he, rfl⟩ := h
  have h1 := List.mem_of_find?_eq_some he
  have h2 := List.find?_some he
  simp only [beq_iff_eq] at h2
  subst h2
  exact h1

omit [LinearOrder T] [OrderBot T] [DecidableEq J] in
theorem find_none_iff {k : K} {qs : List (K × Queue D)} :
    find k qs = none ↔ k ∉ qs.map Prod.fst := by
  simp only [find, Option.map_eq_none_iff, List.find?_eq_none, beq_iff_eq, List.mem_map, not_exists,
    not_and]

omit [LinearOrder T] [OrderBot T] [DecidableEq J] in
theorem mem_unique {k : K} {q q' : Queue D} {qs : List (K × Queue D)}
    (hs : (qs.map Prod.fst).Pairwise (· < ·)) (h : (k, q) ∈ qs) (h' : (k, q') ∈ qs) : q = q' := by
  have := find_of_mem hs h
  rw [find_of_mem hs h'] at this
  exact (Option.some.inj this).symm

omit [LinearOrder T] [OrderBot T] [DecidableEq J] in
theorem setData_keys (k : K) (l : List D) (qs : List (K × Queue D)) :
    (setData k l qs).map Prod.fst = qs.map Prod.fst := by
  simp only [setData, List.map_map]
  apply List.map_congr_left
  intro e _
  simp only [Function.comp]
  split <;> rfl

omit [LinearOrder T] [OrderBot T] [DecidableEq J] in
theorem mem_setData {k : K} {l : List D} {qs : List (K × Queue D)} {e : K × Queue D}
    (h : e ∈ setData k l qs) :
    (e ∈ qs ∧ e.1 ≠ k) ∨ (e.1 = k ∧ ∃ q, (k, q) ∈ qs ∧ e.2 = { q with data := l }) := by
  simp only [setData, List.mem_map] at h
  obtain ⟨e', he', rfl⟩ := h
  split
  · rename_i hk
    right
    subst hk
    exact ⟨rfl, e'.2, he', rfl⟩
  · rename_i hk
    exact Or.inl ⟨he', hk⟩

omit [LinearOrder T] [OrderBot T] [DecidableEq J] in
theorem setData_eq_of_notMem {k : K} {l : List D} {qs : List (K × Queue D)}
    (h : k ∉ qs.map Prod.fst) : setData k l qs = qs := by
  simp only [setData]
  conv_rhs => rw [← List.map_id qs]
  apply List.map_congr_left
  intro e he
  rw [if_neg]
  · rfl
  · rintro rfl; exact h (List.mem_map_of_mem he)

omit [LinearOrder T] [OrderBot T] [DecidableEq J] in
/-- Changing the elements of one queue changes the total accordingly. -/
theorem total_setData {k : K} {q : Queue D} {l : List D} {qs : List (K × Queue D)}
    (hs : (qs.map Prod.fst).Pairwise (· < ·)) (h : (k, q) ∈ qs) :
    total (setData k l qs) + q.data.length = total qs + l.length := by
  induction qs with
  | nil => simp at h
  | cons e rest ih =>
    rw [List.map_cons, List.pairwise_cons] at hs
    rcases List.mem_cons.1 h with rfl | h
    · have hn : k ∉ rest.map Prod.fst := fun hm => lt_irrefl _ (hs.1 k hm)
      have := setData_eq_of_notMem (l := l) hn
      simp only [setData] at this
      simp only [setData, List.map_cons, if_true, this, total, List.sum_cons]
      omega
    · have hne : e.1 ≠ k := ne_of_lt (hs.1 k (List.mem_map_of_mem (f := Prod.fst) h))
      have := ih hs.2 h
      simp only [setData, total, List.map_cons, if_neg hne, List.sum_cons] at this ⊢
      omega

omit [LinearOrder K] [LinearOrder T] [OrderBot T] [DecidableEq J] in
theorem total_sublist {qs qs' : List (K × Queue D)} (h : qs'.Sublist qs) : total qs' ≤ total qs := by
  induction h with
  | slnil => exact le_refl _
  | cons e _ ih => simp only [total, List.map_cons, List.sum_cons] at ih ⊢; omega
  | cons_cons e _ ih => simp only [total, List.map_cons, List.sum_cons] at ih ⊢; omega

/-! ### The common start time -/

omit [LinearOrder K] in
theorem computeStart_spec (j : J) (qs : List (K × Queue D)) (hne : ∀ e ∈ qs, e.2.data ≠ []) :
    ∃ st, computeStart traj time j qs = some st ∧
      (st = ⊥ ∨ ∃ k q d tl, (k, q) ∈ qs ∧ traj k = j ∧ q.data = d :: tl ∧ time d = st) ∧
      ∀ e ∈ qs, traj e.1 = j → ∀ d tl, e.2.data = d :: tl → time d ≤ st := by
  induction qs with
  | nil => exact ⟨⊥, rfl, Or.inl rfl, by simp⟩
  | cons e rest ih =>
    obtain ⟨k, q⟩ := e
    obtain ⟨st, h1, h2, h3⟩ := ih (fun e he => hne e (List.mem_cons_of_mem _ he))
    unfold computeStart
    have h2' : st = ⊥ ∨ ∃ k' q' d tl, (k', q') ∈ (k, q) :: rest ∧ traj k' = j ∧ q'.data = d :: tl ∧
        time d = st := by
      rcases h2 with h2 | ⟨k', q', d, tl, m, h2⟩
      · exact Or.inl h2
      · exact Or.inr ⟨k', q', d, tl, List.mem_cons_of_mem _ m, h2⟩
    by_cases hj : traj k = j
    · rw [if_pos hj]
      cases hq : q.data with
      | nil => exact absurd hq (hne (k, q) List.mem_cons_self)
      | cons d tl =>
        simp only [h1, Option.map_some]
        refine ⟨_, rfl, ?_, ?_⟩
        · rcases le_total (time d) st with hle | hle
          · rw [max_eq_right hle]; exact h2'
          · rw [max_eq_left hle]
            exact Or.inr ⟨k, q, d, tl, List.mem_cons_self, hj, hq, rfl⟩
        · intro e he hje d' tl' hd'
          rcases List.mem_cons.1 he with rfl | he
          · simp only [hq, List.cons.injEq] at hd'
            rw [← hd'.1]; exact le_max_left _ _
          · exact (h3 e he hje d' tl' hd').trans (le_max_right _ _)
    · rw [if_neg hj]
      refine ⟨st, h1, h2', ?_⟩
      intro e he hje d' tl' hd'
      rcases List.mem_cons.1 he with rfl | he
      · exact absurd hje hj
      · exact h3 e he hje d' tl' hd'

/-! ### The invariant -/

/-- Invariant relating a state to the history: `added k` everything added to queue `k`, `fin` the queues
marked finished, `outs` everything dispatched so far.  `lim o k` says that `o` was already dispatched when queue `k` was registered; without `full` nothing
is said about dropped data. -/
structure InvL (lim : K × D → K → Prop) (full : Prop) (reg : K → Prop) (added : K → List D) (fin : K → Bool) (s : State K J D T)
    (outs : List (K × D)) : Prop where
  keys : (s.queues.map Prod.fst).Pairwise (· < ·)
  regq : ∀ e ∈ s.queues, reg e.1
  finq : ∀ e ∈ s.queues, e.2.finished = fin e.1
  gone : ∀ k, reg k → k ∉ s.queues.map Prod.fst → fin k = true
  sorted : ∀ k, reg k → (added k).Pairwise (fun a b => time a ≤ time b)
  suff : ∀ e ∈ s.queues, e.2.data <:+ added e.1
  noStart : ∀ k, reg k → s.start (traj k) = none → emitted k outs = [] ∧
    (∀ e ∈ s.queues, e.1 = k → e.2.data = added k) ∧ (k ∉ s.queues.map Prod.fst → added k = [])
  content : ∀ k st, reg k → s.start (traj k) = some st →
    (∀ e ∈ s.queues, e.1 = k → ∀ ext, (fin k = true → ext = []) →
      emitted k outs ++ kept time st (e.2.data ++ ext) = kept time st (added k ++ ext)) ∧
    (k ∉ s.queues.map Prod.fst → emitted k outs = kept time st (added k))
  startSpec : ∀ j st, s.start j = some st → IsStart traj time reg added j st
  startFin : ∀ k st, reg k → s.start (traj k) = some st → added k = [] → fin k = true
  outsReg : ∀ o ∈ outs, reg o.1
  outsSorted : outs.Pairwise (Le time)
  bound : ∀ o ∈ outs, ∀ e ∈ s.queues, (∀ x ∈ e.2.data, Le time o (e.1, x)) ∧
    (fin e.1 = false → (∃ d ∈ added e.1, Le time o (e.1, d)) ∨ lim o e.1)
  lastB : s.last = ⊥ ∨ ∃ o ∈ outs, s.last = time o.2
  consumed : full → ∀ e1 ∈ s.queues, ∀ p, added e1.1 = p ++ e1.2.data → ∀ y ∈ p, ∀ e ∈ s.queues,
    (∀ x ∈ e.2.data, Le time (e1.1, y) (e.1, x)) ∧
    (fin e.1 = false → ∃ d ∈ added e.1, Le time (e1.1, y) (e.1, d))
  lastTop : ∀ o ∈ outs, time o.2 ≤ s.last

/-- The invariant if all queues are registered at the beginning. -/
abbrev Inv (reg : K → Prop) (added : K → List D) (fin : K → Bool) (s : State K J D T) (outs : List (K × D)) : Prop :=
  InvL traj time (fun _ _ => False) True reg added fin s outs

variable {traj time} {lim : K × D → K → Prop} {full : Prop}
variable {reg : K → Prop} {added : K → List D} {fin : K → Bool} {s : State K J D T}
  {outs : List (K × D)}

/-- Erasing finished empty queues keeps the invariant. -/
theorem InvL.erase (h : InvL traj time lim full reg added fin s outs) {qs : List (K × Queue D)}
    (hsub : qs.Sublist s.queues)
    (her : ∀ e ∈ s.queues, e ∉ qs → e.2.data = [] ∧ e.2.finished = true) :
    InvL traj time lim full reg added fin { s with queues := qs } outs := by
  have key : ∀ k, k ∉ qs.map Prod.fst → k ∈ s.queues.map Prod.fst →
      ∃ q, (k, q) ∈ s.queues ∧ q.data = [] ∧ q.finished = true := by
    intro k hk hk'
    obtain ⟨⟨k', q⟩, hm, rfl⟩ := List.mem_map.1 hk'
    exact ⟨q, hm, her _ hm (fun hc => hk (List.mem_map_of_mem hc))⟩
  refine ⟨h.keys.sublist (hsub.map _), fun e he => h.regq e (hsub.subset he),
    fun e he => h.finq e (hsub.subset he), ?_, h.sorted, fun e he => h.suff e (hsub.subset he),
    ?_, ?_, h.startSpec, h.startFin, h.outsReg, h.outsSorted,
    fun o ho e he => h.bound o ho e (hsub.subset he), h.lastB,
    fun hfull e1 h1 p hp y hy e he => h.consumed hfull e1 (hsub.subset h1) p hp y hy e (hsub.subset he),
    h.lastTop⟩
  · intro k hr hk
    by_cases hk' : k ∈ s.queues.map Prod.fst
    · obtain ⟨q, hm, _, hf⟩ := key k hk hk'
      rw [← h.finq _ hm]; exact hf
    · exact h.gone k hr hk'
  · intro k hr hst
    obtain ⟨a, b, c⟩ := h.noStart k hr hst
    refine ⟨a, fun e he => b e (hsub.subset he), ?_⟩
    intro hk
    by_cases hk' : k ∈ s.queues.map Prod.fst
    · obtain ⟨q, hm, hd, _⟩ := key k hk hk'
      rw [← b _ hm rfl]; exact hd
    · exact c hk'
  · intro k st hr hst
    obtain ⟨a, b⟩ := h.content k st hr hst
    refine ⟨fun e he => a e (hsub.subset he), ?_⟩
    intro hk
    by_cases hk' : k ∈ s.queues.map Prod.fst
    · obtain ⟨q, hm, hd, _⟩ := key k hk hk'
      have := a _ hm rfl [] (fun _ => rfl)
      simpa [hd, kept] using this
    · exact b hk'

/-- `blocker` plays no role in the invariant. -/
theorem InvL.setBlocker (h : InvL traj time lim full reg added fin s outs) (b : Option K) :
    InvL traj time lim full reg added fin { s with blocker := b } outs :=
  ⟨h.keys, h.regq, h.finq, h.gone, h.sorted, h.suff, h.noStart, h.content, h.startSpec, h.startFin,
    h.outsReg, h.outsSorted, h.bound, h.lastB, h.consumed, h.lastTop⟩

/-- Memoising the common start time of `j` keeps the invariant, provided all present queues are
nonempty and the value is the right one. -/
theorem InvL.setStart (h : InvL traj time lim full reg added fin s outs) {j : J} {st : T}
    (hnone : s.start j = none) (hst : IsStart traj time reg added j st)
    (hne : ∀ e ∈ s.queues, e.2.data ≠ []) :
    InvL traj time lim full reg added fin
      { s with start := fun j' => if j' = j then some st else s.start j' } outs := by
  refine ⟨h.keys, h.regq, h.finq, h.gone, h.sorted, h.suff, ?_, ?_, ?_, ?_,
    h.outsReg, h.outsSorted, h.bound, h.lastB, h.consumed, h.lastTop⟩
  · intro k hr hs
    simp only at hs
    split at hs
    · cases hs
    · exact h.noStart k hr hs
  · intro k st' hr hs
    simp only at hs
    split at hs
    · rename_i hj
      cases hs
      obtain ⟨a, b, c⟩ := h.noStart k hr (hj ▸ hnone)
      refine ⟨?_, ?_⟩
      · intro e he hek ext _
        rw [a, b e he hek]; rfl
      · intro hk; rw [a, c hk]; rfl
    · exact h.content k st' hr hs
  · intro j' st' hs
    simp only at hs
    split at hs
    · rename_i hj; cases hs; subst hj; exact hst
    · exact h.startSpec j' st' hs
  · intro k st' hr hs ha
    simp only at hs
    split at hs
    · rename_i hj
      by_cases hk : k ∈ s.queues.map Prod.fst
      · obtain ⟨⟨k', q⟩, hm, rfl⟩ := List.mem_map.1 hk
        have := (h.noStart _ hr (hj ▸ hnone)).2.1 _ hm rfl
        exact absurd (this.trans ha) (hne _ hm)
      · exact h.gone k hr hk
    · exact h.startFin k st' hr hs ha

/-- Popping the head of queue `k`, either delivering it (`out = [(k,d)]`) or dropping it. -/
theorem InvL.pop (h : InvL traj time lim full reg added fin s outs) {k : K} {q : Queue D} {d : D} {tl : List D}
    {st : T} (hm : (k, q) ∈ s.queues) (hq : q.data = d :: tl) (hst : s.start (traj k) = some st)
    (hne : ∀ e ∈ s.queues, e.2.data ≠ [])
    (hmin : ∀ e ∈ s.queues, ∀ d' tl', e.2.data = d' :: tl' → Le time (k, d) (e.1, d'))
    (out : Option (K × D)) (last' : T)
    (hout : (out = none ∧ last' = s.last) ∨ (out = some (k, d) ∧ last' = time d))
    (hkept : ∀ ext, (fin k = true → ext = []) →
      kept time st (d :: tl ++ ext) = (out.toList.map Prod.snd) ++ kept time st (tl ++ ext)) :
    InvL traj time lim full reg added fin { s with last := last', queues := setData k tl s.queues }
      (outs ++ out.toList) := by
  have hout' : ∀ o ∈ out.toList, o = (k, d) := by
    intro o ho
    rcases hout with ⟨rfl, _⟩ | ⟨rfl, _⟩
    · simp at ho
    · simpa using ho
  have hem : emitted k out.toList = out.toList.map Prod.snd := by
    rcases hout with ⟨rfl, _⟩ | ⟨rfl, _⟩ <;> simp [emitted]
  have hem' : ∀ k', k' ≠ k → emitted k' out.toList = [] := by
    intro k' hk'
    rcases hout with ⟨rfl, _⟩ | ⟨rfl, _⟩
    · simp [emitted]
    · simp only [emitted, Option.toList_some, List.map_eq_nil_iff, List.filter_eq_nil_iff]
      simpa using fun hc => hk' (Eq.symm hc)
  have hsuf := h.suff _ hm
  have hda : d ∈ added k := hsuf.subset (by simp [hq])
  have hdtl : ∀ x ∈ tl, time d ≤ time x := by
    have := (h.sorted k (h.regq _ hm)).sublist hsuf.sublist
    rw [hq, List.pairwise_cons] at this
    exact this.1
  -- every element of every queue comes after (k, d)
  have hall : ∀ e ∈ s.queues, ∀ x ∈ e.2.data, Le time (k, d) (e.1, x) := by
    intro e he x hx
    cases hd : e.2.data with
    | nil => rw [hd] at hx; simp at hx
    | cons d' tl' =>
      have h1 := hmin e he d' tl' hd
      rw [hd] at hx
      rcases List.mem_cons.1 hx with rfl | hx
      · exact h1
      · have := (h.sorted e.1 (h.regq _ he)).sublist (h.suff e he).sublist
        rw [hd, List.pairwise_cons] at this
        exact h1.trans time (Le.of_time_le time (this.1 x hx))
  refine ⟨?_, ?_, ?_, ?_, h.sorted, ?_, ?_, ?_, h.startSpec, h.startFin, ?_, ?_, ?_, ?_, ?_, ?_⟩
  · rw [setData_keys]; exact h.keys
  · intro e he
    rcases mem_setData he with ⟨he, _⟩ | ⟨hk, q', hq', _⟩
    · exact h.regq e he
    · rw [hk]; exact h.regq _ hq'
  · intro e he
    rcases mem_setData he with ⟨he, _⟩ | ⟨hk, q', hq', e2⟩
    · exact h.finq e he
    · rw [hk, e2]; exact h.finq _ hq'
  · intro k' hr hk'
    simp only [setData_keys] at hk'
    exact h.gone k' hr hk'
  · intro e he
    rcases mem_setData he with ⟨he, _⟩ | ⟨hk, q', hq', e2⟩
    · exact h.suff e he
    · rw [hk, e2]
      exact (List.suffix_cons d tl).trans (hq ▸ hsuf)
  · intro k' hr hs
    have hkk : k' ≠ k := by
      rintro rfl
      simp only at hs
      rw [hst] at hs; cases hs
    obtain ⟨a, b, c⟩ := h.noStart k' hr hs
    refine ⟨by rw [emitted_append, a, hem' k' hkk]; rfl, ?_, ?_⟩
    · intro e he hek
      rcases mem_setData he with ⟨he, _⟩ | ⟨hk, _⟩
      · exact b e he hek
      · exact absurd (hek.symm.trans hk) hkk
    · simp only [setData_keys]; exact c
  · intro k' st' hr hs
    obtain ⟨a, b⟩ := h.content k' st' hr hs
    rw [emitted_append]
    simp only [setData_keys]
    by_cases hkk : k' = k
    · subst hkk
      simp only at hs
      rw [hst] at hs; cases hs
      refine ⟨?_, fun hc => absurd (List.mem_map_of_mem (f := Prod.fst) hm) hc⟩
      intro e he hek ext hext
      rcases mem_setData he with ⟨_, hn⟩ | ⟨_, q', hq', e2⟩
      · exact absurd hek hn
      · rw [e2, hem, List.append_assoc]
        simp only
        rw [← hkept ext hext, ← hq]
        exact a _ hm rfl ext hext
    · rw [hem' k' hkk, List.append_nil]
      refine ⟨?_, b⟩
      intro e he hek
      rcases mem_setData he with ⟨he, _⟩ | ⟨hk, _⟩
      · exact a e he hek
      · exact absurd (hek.symm.trans hk) hkk
  · intro o ho
    rcases List.mem_append.1 ho with ho | ho
    · exact h.outsReg o ho
    · rw [hout' o ho]; exact h.regq _ hm
  · rw [List.pairwise_append]
    refine ⟨h.outsSorted, ?_, ?_⟩
    · rcases hout with ⟨rfl, _⟩ | ⟨rfl, _⟩ <;> simp
    · intro o ho o' ho'
      rw [hout' o' ho']
      exact (h.bound o ho _ hm).1 d (by simp [hq])
  · intro o ho e he
    rcases List.mem_append.1 ho with ho | ho
    · rcases mem_setData he with ⟨he, _⟩ | ⟨hk, q', hq', e2⟩
      · exact h.bound o ho e he
      · obtain ⟨b1, b2⟩ := h.bound o ho _ hm
        rw [hk, e2]
        exact ⟨fun x hx => b1 x (by simp [hq, show x ∈ tl from hx]), b2⟩
    · rw [hout' o ho]
      rcases mem_setData he with ⟨he, _⟩ | ⟨hk, q', hq', e2⟩
      · refine ⟨hall e he, fun _ => ?_⟩
        cases hd : e.2.data with
        | nil => exact absurd hd (hne e he)
        | cons d' tl' => exact Or.inl ⟨d', (h.suff e he).subset (by simp [hd]), hmin e he d' tl' hd⟩
      · rw [hk, e2]
        exact ⟨fun x hx => Le.of_time_le time (hdtl x hx), fun _ => Or.inl ⟨d, hda, Le.refl time _⟩⟩
  · rcases hout with ⟨rfl, hl⟩ | ⟨rfl, hl⟩
    · simpa [hl] using h.lastB
    · exact Or.inr ⟨(k, d), by simp, hl⟩
  · intro hfull e1 h1 p hp y hy
    have hold : (∀ e ∈ s.queues, (∀ x ∈ e.2.data, Le time (e1.1, y) (e.1, x)) ∧
        (fin e.1 = false → ∃ d ∈ added e.1, Le time (e1.1, y) (e.1, d))) ∨ (e1.1 = k ∧ y = d) := by
      rcases mem_setData h1 with ⟨h1, hn⟩ | ⟨hk1, q1, hq1, e12⟩
      · exact Or.inl (h.consumed hfull e1 h1 p hp y hy)
      · obtain ⟨p0, hp0⟩ := hsuf
        simp only at hp0
        have hpp : p = p0 ++ [d] := by
          rw [hk1, ← hp0, e12, hq] at hp
          simp only at hp
          have : (p0 ++ [d]) ++ tl = p ++ tl := by simpa using hp
          exact (List.append_cancel_right this).symm
        rw [hpp] at hy
        rcases List.mem_append.1 hy with hy | hy
        · left
          rw [hk1]
          exact h.consumed hfull _ hm p0 hp0.symm y hy
        · exact Or.inr ⟨hk1, by simpa using hy⟩
    intro e he
    rcases hold with hold | ⟨hk1, rfl⟩
    · rcases mem_setData he with ⟨he, _⟩ | ⟨hk, q', hq', e2⟩
      · exact hold e he
      · obtain ⟨b1, b2⟩ := hold _ hm
        rw [hk, e2]
        exact ⟨fun x hx => b1 x (by simp [hq, show x ∈ tl from hx]), b2⟩
    · rw [hk1]
      rcases mem_setData he with ⟨he, _⟩ | ⟨hk, q', hq', e2⟩
      · refine ⟨hall e he, fun _ => ?_⟩
        cases hd : e.2.data with
        | nil => exact absurd hd (hne e he)
        | cons d' tl' => exact ⟨d', (h.suff e he).subset (by simp [hd]), hmin e he d' tl' hd⟩
      · rw [hk, e2]
        exact ⟨fun x hx => Le.of_time_le time (hdtl x hx), fun _ => ⟨_, hda, Le.refl time _⟩⟩
  · intro o ho
    rcases hout with ⟨rfl, hl⟩ | ⟨rfl, hl⟩
    · rw [show last' = s.last from hl]; exact h.lastTop o (by simpa using ho)
    · rw [show last' = time d from hl]
      rcases List.mem_append.1 ho with ho | ho
      · exact ((h.bound o ho _ hm).1 d (by simp [hq])).time_le
      · rw [hout' o ho]

/-- The queue cannot make progress until queue `k` gets data or is finished. -/
def BlockedAt (traj : K → J) (time : D → T) (s : State K J D T) (k : K) : Prop :=
  ∃ q, (k, q) ∈ s.queues ∧ q.finished = false ∧
    (q.data = [] ∨ ∃ d st, q.data = [d] ∧ s.start (traj k) = some st ∧ time d < st ∧
      ∀ e ∈ s.queues, ∃ d' tl', e.2.data = d' :: tl' ∧ Le time (k, d) (e.1, d'))

/-- One loop iteration in a state satisfying the invariant. -/
theorem iter_spec (h : InvL traj time lim full reg added fin s outs) :
    (∃ s', iter traj time s = .stop s' ∧ InvL traj time lim full reg added fin s' outs ∧
      (s'.queues = [] ∨ ∃ k, s'.blocker = some k ∧ BlockedAt traj time s' k)) ∨
    (∃ s' out, iter traj time s = .cont s' out ∧ InvL traj time lim full reg added fin s' (outs ++ out.toList) ∧
      total s'.queues < total s.queues) := by
  have hsc := scan_ok time s.last s.queues none h.keys (by simp)
  have hncr : (scan time s.last s.queues none).2 ≠ .crash := by
    apply hsc.noCrash
    · intro e he d hd
      rcases h.lastB with hl | ⟨o, ho, hl⟩
      · rw [hl]; exact bot_le
      · rw [hl]; exact ((h.bound o ho e he).1 d hd).time_le
    · simp
  unfold iter
  generalize hr : scan time s.last s.queues none = r at hsc hncr
  obtain ⟨qs, res⟩ := r
  simp only at hsc hncr
  have he := h.erase hsc.sub hsc.erased
  cases res with
  | crash => exact absurd rfl hncr
  | blocked k =>
    left
    refine ⟨_, rfl, he.setBlocker _, Or.inr ⟨k, rfl, ?_⟩⟩
    obtain ⟨q, hq, hd, hf⟩ := hsc.blocked k rfl
    exact ⟨q, hq, hf, Or.inl hd⟩
  | next best =>
    cases best with
    | none =>
      left
      obtain ⟨_, rfl⟩ := hsc.nextNone rfl
      exact ⟨_, rfl, he, Or.inl rfl⟩
    | some b =>
      obtain ⟨k, d⟩ := b
      obtain ⟨hne, hb, -, hmin⟩ := hsc.nextSome _ rfl
      rcases hb with hb | ⟨q, tl, hm, hq⟩
      · cases hb
      simp only at hm hq
      have hfind : find k qs = some q := find_of_mem he.keys hm
      -- the common start time
      have hstart : ∃ cst, commonStart traj time s.start (traj k) qs = some cst ∧
          InvL traj time lim full reg added fin
            { s with queues := qs, start := fun j => if j = traj k then some cst else s.start j } outs := by
        unfold commonStart
        cases hs : s.start (traj k) with
        | some t =>
          refine ⟨t, rfl, ?_⟩
          have : (fun j => if j = traj k then some t else s.start j) = s.start := by
            funext j
            split
            · rename_i hj; rw [hj, hs]
            · rfl
          rw [this]; exact he
        | none =>
          obtain ⟨st, h1, h2, h3⟩ := computeStart_spec traj time (traj k) qs hne
          refine ⟨st, h1, he.setStart hs ?_ hne⟩
          have hfirst : ∀ e ∈ qs, traj e.1 = traj k → e.2.data = added e.1 := by
            intro e hee hj
            exact (he.noStart e.1 (he.regq e hee) (by rw [hj]; exact hs)).2.1 e hee rfl
          constructor
          · rcases h2 with h2 | ⟨k', q', d', tl', m', hj', hq', ht'⟩
            · refine ⟨k, d, he.regq _ hm, rfl, ?_, ?_⟩
              · rw [← hfirst _ hm rfl, hq]; rfl
              · have := h3 _ hm rfl d tl hq
                rw [h2] at this ⊢
                exact le_bot_iff.1 this
            · refine ⟨k', d', he.regq _ m', hj', ?_, ht'⟩
              rw [← hfirst _ m' hj', hq']; rfl
          · intro k' d' hr' hj' hd'
            by_cases hk' : k' ∈ qs.map Prod.fst
            · obtain ⟨⟨k'', q''⟩, m'', rfl⟩ := List.mem_map.1 hk'
              have e1 := hfirst _ m'' hj'
              rw [← e1] at hd'
              cases hqq : q''.data with
              | nil => exact absurd hqq (hne _ m'')
              | cons a b =>
                rw [hqq] at hd'
                simp only [List.head?_cons, Option.some.injEq] at hd'
                subst hd'
                exact h3 _ m'' hj' a b hqq
            · have := (he.noStart k' hr' (by rw [hj']; exact hs)).2.2 hk'
              rw [this] at hd'; cases hd'
      obtain ⟨cst, hc1, hc2⟩ := hstart
      simp only [hc1, hfind]
      set s1 : State K J D T :=
        { s with queues := qs, start := fun j => if j = traj k then some cst else s.start j } with hs1
      have hst1 : s1.start (traj k) = some cst := by simp [hs1]
      have hfin : q.finished = fin k := hc2.finq _ hm
      have htot : total (setData k q.data.tail qs) < total s.queues := by
        have h1 := total_setData (l := q.data.tail) he.keys hm
        have h2 := total_sublist hsc.sub
        rw [hq] at h1 ⊢
        simp only [List.length_cons, List.tail_cons] at h1 ⊢
        omega
      have htl : q.data.tail = tl := by rw [hq]; rfl
      rw [htl] at htot ⊢
      by_cases hle : cst ≤ time d
      · right
        rw [if_pos hle]
        refine ⟨_, _, rfl, ?_, htot⟩
        refine hc2.pop hm hq hst1 hne hmin (some (k, d)) (time d) (Or.inr ⟨rfl, rfl⟩) ?_
        intro ext _
        cases hx : tl ++ ext with
        | nil => simp only [List.cons_append, hx]; rfl
        | cons a b => simp only [List.cons_append, hx, kept, hle, true_or, if_true]; rfl
      · rw [if_neg hle]
        rw [hq]
        by_cases hlen : (d :: tl).length < 2
        · rw [if_pos hlen]
          have htl0 : tl = [] := by
            cases tl with
            | nil => rfl
            | cons a b => simp only [List.length_cons] at hlen; omega
          by_cases hf : q.finished = true
          · right
            rw [if_pos hf]
            refine ⟨_, _, rfl, ?_, htot⟩
            refine hc2.pop hm hq hst1 hne hmin (some (k, d)) (time d) (Or.inr ⟨rfl, rfl⟩) ?_
            intro ext hext
            rw [hext (hfin ▸ hf), htl0]
            rfl
          · left
            rw [if_neg hf]
            refine ⟨_, rfl, hc2.setBlocker _, Or.inr ⟨k, rfl, q, hm, by simpa using hf, Or.inr ?_⟩⟩
            refine ⟨d, cst, by rw [hq, htl0], hst1, not_le.1 hle, ?_⟩
            intro e hee
            cases hd : e.2.data with
            | nil => exact absurd hd (hne e hee)
            | cons d' tl' => exact ⟨d', tl', rfl, hmin e hee d' tl' hd⟩
        · rw [if_neg hlen]
          cases tl with
          | nil => simp at hlen
          | cons d2 tl2 =>
            right
            simp only
            by_cases hlt : cst < time d2
            · rw [if_pos hlt]
              refine ⟨_, _, rfl, ?_, htot⟩
              refine hc2.pop hm hq hst1 hne hmin (some (k, d)) (time d) (Or.inr ⟨rfl, rfl⟩) ?_
              intro ext _
              simp only [List.cons_append, kept, hlt, or_true, if_true]; rfl
            · rw [if_neg hlt]
              refine ⟨_, _, rfl, ?_, htot⟩
              have := hc2.pop hm hq hst1 hne hmin none s1.last (Or.inl ⟨rfl, rfl⟩) ?_
              · exact this
              · intro ext _
                simp only [List.cons_append, kept, hle, hlt, or_self, if_false]; rfl

/-- `Dispatch` in a state satisfying the invariant never crashes, re-establishes it and leaves either no
queue or a blocker. -/
theorem dispatchFuel_spec (n : Nat) : ∀ (s : State K J D T) (outs : List (K × D)),
    InvL traj time lim full reg added fin s outs → total s.queues < n →
    ∃ s' new, dispatchFuel traj time n s = some (s', new) ∧
      InvL traj time lim full reg added fin s' (outs ++ new) ∧
      (s'.queues = [] ∨ ∃ k, s'.blocker = some k ∧ BlockedAt traj time s' k) := by
  induction n with
  | zero => intro s outs _ h; omega
  | succ n ih =>
    intro s outs h ht
    unfold dispatchFuel
    rcases iter_spec h with ⟨s', h1, h2, h3⟩ | ⟨s', out, h1, h2, h3⟩
    · rw [h1]
      exact ⟨s', [], rfl, by simpa using h2, h3⟩
    · rw [h1]
      obtain ⟨s'', new, e1, e2, e3⟩ := ih s' _ h2 (by omega)
      exact ⟨s'', out.toList ++ new, by simp [e1], by rwa [List.append_assoc] at e2, e3⟩

theorem dispatch_spec (h : InvL traj time lim full reg added fin s outs) :
    ∃ s' new, dispatch traj time s = some (s', new) ∧
      InvL traj time lim full reg added fin s' (outs ++ new) ∧
      (s'.queues = [] ∨ ∃ k, s'.blocker = some k ∧ BlockedAt traj time s' k) :=
  dispatchFuel_spec _ s outs h (by omega)

/-- More fuel never changes the result of the loop (so the bound used by `dispatch` is not observable). -/
theorem dispatchFuel_stable (h : InvL traj time lim full reg added fin s outs) (n : Nat)
    (hn : total s.queues + 1 ≤ n) : dispatchFuel traj time n s = dispatch traj time s := by
  have key : ∀ (m : Nat) (s : State K J D T) (outs : List (K × D)), InvL traj time lim full reg added fin s outs →
      total s.queues < m → dispatchFuel traj time (m + 1) s = dispatchFuel traj time m s := by
    intro m
    induction m with
    | zero => intro s outs _ h; omega
    | succ m ih =>
      intro s outs h ht
      rw [dispatchFuel, dispatchFuel]
      rcases iter_spec h with ⟨s', h1, h2, h3⟩ | ⟨s', out, h1, h2, h3⟩
      · rw [h1]
      · rw [h1]; simp only; rw [ih s' _ h2 (by omega)]
  induction n, hn using Nat.le_induction with
  | base => rfl
  | succ n hn ih => rw [key n s outs h (by omega), ih]

/-- Adding an element at the end of an unfinished queue. -/
theorem InvL.push (h : InvL traj time lim full reg added fin s outs) {k : K} {q : Queue D} {d : D}
    (hm : (k, q) ∈ s.queues) (hf : fin k = false) (hd : ∀ x ∈ added k, time x ≤ time d)
    (hl : ∀ o ∈ outs, lim o k → Le time o (k, d)) :
    InvL traj time lim full reg (fun k' => if k' = k then added k ++ [d] else added k') fin
      { s with queues := setData k (q.data ++ [d]) s.queues } outs := by
  refine ⟨?_, ?_, ?_, ?_, ?_, ?_, ?_, ?_, ?_, ?_, h.outsReg, h.outsSorted, ?_, h.lastB, ?_, h.lastTop⟩
  · rw [setData_keys]; exact h.keys
  · intro e he
    rcases mem_setData he with ⟨he, _⟩ | ⟨hk, q', hq', _⟩
    · exact h.regq e he
    · rw [hk]; exact h.regq _ hq'
  · intro e he
    rcases mem_setData he with ⟨he, _⟩ | ⟨hk, q', hq', e2⟩
    · exact h.finq e he
    · rw [hk, e2]; exact h.finq _ hq'
  · intro k' hr hk'
    simp only [setData_keys] at hk'
    exact h.gone k' hr hk'
  · intro k' hr
    split
    · rw [List.pairwise_append]
      refine ⟨h.sorted k (h.regq _ hm), by simp, ?_⟩
      intro x hx y hy
      simp only [List.mem_singleton] at hy
      subst hy; exact hd x hx
    · exact h.sorted k' hr
  · intro e he
    rcases mem_setData he with ⟨he, hn⟩ | ⟨hk, q', hq', e2⟩
    · rw [if_neg hn]; exact h.suff e he
    · rw [if_pos hk, e2]
      obtain ⟨p, hp⟩ := h.suff _ hm
      exact ⟨p, by simp only at hp ⊢; rw [← hp, List.append_assoc]⟩
  · intro k' hr hs
    obtain ⟨a, b, c⟩ := h.noStart k' hr hs
    refine ⟨a, ?_, ?_⟩
    · intro e he hek
      rcases mem_setData he with ⟨he, hn⟩ | ⟨hk, q', hq', e2⟩
      · rw [if_neg (hek ▸ hn)]; exact b e he hek
      · have hkk : k' = k := hek.symm.trans hk
        subst hkk
        rw [if_pos rfl, e2]
        simp only
        rw [← b _ hm rfl]
    · simp only [setData_keys]
      intro hk'
      rw [if_neg]
      · exact c hk'
      · rintro rfl; exact hk' (List.mem_map_of_mem (f := Prod.fst) hm)
  · intro k' st hr hs
    obtain ⟨a, b⟩ := h.content k' st hr hs
    refine ⟨?_, ?_⟩
    · intro e he hek ext hext
      rcases mem_setData he with ⟨he, hn⟩ | ⟨hk, q', hq', e2⟩
      · rw [if_neg (hek ▸ hn)]; exact a e he hek ext hext
      · have hkk : k' = k := hek.symm.trans hk
        subst hkk
        rw [if_pos rfl, e2]
        simp only [List.append_assoc]
        exact a _ hm rfl ([d] ++ ext) (by rw [hf]; simp)
    · simp only [setData_keys]
      intro hk'
      rw [if_neg]
      · exact b hk'
      · rintro rfl; exact hk' (List.mem_map_of_mem (f := Prod.fst) hm)
  · intro j st hs
    have hne : ∀ st', s.start (traj k) = some st' → added k ≠ [] := by
      intro st' hs' hc
      have := h.startFin k st' (h.regq _ hm) hs' hc
      rw [hf] at this; cases this
    obtain ⟨⟨k1, d1, r1, t1, a1, b1⟩, h2⟩ := h.startSpec j st hs
    constructor
    · refine ⟨k1, d1, r1, t1, ?_, b1⟩
      simp only
      split
      · rename_i hk; subst hk
        cases hadd : added k1 with
        | nil => rw [hadd] at a1; cases a1
        | cons x y => rw [hadd] at a1; exact a1
      · exact a1
    · intro k' d' r' t' a'
      simp only at a'
      split at a'
      · rename_i hk
        subst hk
        cases hadd : added k' with
        | nil => exact absurd hadd (hne st (by rw [t']; exact hs))
        | cons x y =>
          rw [hadd] at a'
          exact h2 k' d' r' t' (by rw [hadd]; exact a')
      · exact h2 k' d' r' t' a'
  · intro k' st hr hs ha
    split at ha
    · simp at ha
    · exact h.startFin k' st hr hs ha
  · intro o ho e he
    rcases mem_setData he with ⟨he, hn⟩ | ⟨hk, q', hq', e2⟩
    · rw [if_neg hn]; exact h.bound o ho e he
    · obtain ⟨b1, b2⟩ := h.bound o ho _ hm
      have hled : Le time o (k, d) := by
        rcases b2 hf with ⟨d0, hd0, hle0⟩ | hlim
        · exact hle0.trans time (Le.of_time_le time (hd d0 hd0))
        · exact hl o ho hlim
      rw [hk, e2, if_pos rfl]
      refine ⟨?_, fun _ => Or.inl ⟨d, by simp, hled⟩⟩
      intro x hx
      rcases List.mem_append.1 hx with hx | hx
      · exact b1 x hx
      · simp only [List.mem_singleton] at hx; subst hx; exact hled
  · intro hfull e1 h1 p hp y hy
    have hold : ∀ e ∈ s.queues, (∀ x ∈ e.2.data, Le time (e1.1, y) (e.1, x)) ∧
        (fin e.1 = false → ∃ d ∈ added e.1, Le time (e1.1, y) (e.1, d)) := by
      rcases mem_setData h1 with ⟨h1, hn⟩ | ⟨hk1, q1, hq1, e12⟩
      · rw [if_neg hn] at hp
        exact h.consumed hfull e1 h1 p hp y hy
      · rw [if_pos hk1, e12] at hp
        simp only at hp
        rw [← List.append_assoc] at hp
        rw [hk1]
        exact h.consumed hfull _ hm p (List.append_cancel_right hp) y hy
    intro e he
    rcases mem_setData he with ⟨he, hn⟩ | ⟨hk, q', hq', e2⟩
    · rw [if_neg hn]; exact hold e he
    · obtain ⟨b1, b2⟩ := hold _ hm
      obtain ⟨d0, hd0, hle0⟩ := b2 hf
      have hled : Le time (e1.1, y) (k, d) := hle0.trans time (Le.of_time_le time (hd d0 hd0))
      rw [hk, e2, if_pos rfl]
      refine ⟨?_, fun _ => ⟨d, by simp, hled⟩⟩
      intro x hx
      rcases List.mem_append.1 hx with hx | hx
      · exact b1 x hx
      · simp only [List.mem_singleton] at hx; subst hx; exact hled

/-- Marking an unfinished queue as finished. -/
theorem InvL.finish (h : InvL traj time lim full reg added fin s outs) {k : K} {q : Queue D}
    (hm : (k, q) ∈ s.queues) :
    InvL traj time lim full reg added (fun k' => if k' = k then true else fin k')
      { s with queues := setFinished k s.queues } outs := by
  have hmem : ∀ e ∈ setFinished k s.queues,
      (e ∈ s.queues ∧ e.1 ≠ k) ∨ (e.1 = k ∧ ∃ q, (k, q) ∈ s.queues ∧ e.2 = { q with finished := true }) := by
    intro e he
    simp only [setFinished, List.mem_map] at he
    obtain ⟨e', he', rfl⟩ := he
    split
    · rename_i hk; subst hk; exact Or.inr ⟨rfl, e'.2, he', rfl⟩
    · rename_i hk; exact Or.inl ⟨he', hk⟩
  have hkeys : (setFinished k s.queues).map Prod.fst = s.queues.map Prod.fst := by
    rw [setFinished, List.map_map]
    apply List.map_congr_left
    intro e _
    simp only [Function.comp]
    split <;> rfl
  refine ⟨?_, ?_, ?_, ?_, h.sorted, ?_, ?_, ?_, h.startSpec, ?_, h.outsReg, h.outsSorted, ?_, h.lastB, ?_, h.lastTop⟩
  · rw [hkeys]; exact h.keys
  · intro e he
    rcases hmem e he with ⟨he, _⟩ | ⟨hk, q', hq', _⟩
    · exact h.regq e he
    · rw [hk]; exact h.regq _ hq'
  · intro e he
    rcases hmem e he with ⟨he, hn⟩ | ⟨hk, q', hq', e2⟩
    · rw [if_neg hn]; exact h.finq e he
    · rw [if_pos hk, e2]
  · intro k' hr hk'
    rw [hkeys] at hk'
    split
    · rfl
    · exact h.gone k' hr hk'
  · intro e he
    rcases hmem e he with ⟨he, hn⟩ | ⟨hk, q', hq', e2⟩
    · exact h.suff e he
    · rw [hk, e2]; exact h.suff _ hq'
  · intro k' hr hs
    obtain ⟨a, b, c⟩ := h.noStart k' hr hs
    refine ⟨a, ?_, ?_⟩
    · intro e he hek
      rcases hmem e he with ⟨he, hn⟩ | ⟨hk, q', hq', e2⟩
      · exact b e he hek
      · rw [e2]; exact b _ hq' (hk.symm.trans hek)
    · rw [hkeys]; exact c
  · intro k' st hr hs
    obtain ⟨a, b⟩ := h.content k' st hr hs
    refine ⟨?_, ?_⟩
    · intro e he hek ext hext
      have hext' : fin k' = true → ext = [] := by
        intro hf; apply hext; split
        · rfl
        · exact hf
      rcases hmem e he with ⟨he, hn⟩ | ⟨hk, q', hq', e2⟩
      · exact a e he hek ext hext'
      · rw [e2]; exact a _ hq' (hk.symm.trans hek) ext hext'
    · rw [hkeys]; exact b
  · intro k' st hr hs ha
    split
    · rfl
    · exact h.startFin k' st hr hs ha
  · intro o ho e he
    rcases hmem e he with ⟨he, hn⟩ | ⟨hk, q', hq', e2⟩
    · rw [if_neg hn]; exact h.bound o ho e he
    · rw [e2, hk, if_pos rfl]
      exact ⟨(h.bound o ho _ hq').1, by simp⟩
  · intro hfull e1 h1 p hp y hy e he
    have hold : ∀ e ∈ s.queues, (∀ x ∈ e.2.data, Le time (e1.1, y) (e.1, x)) ∧
        (fin e.1 = false → ∃ d ∈ added e.1, Le time (e1.1, y) (e.1, d)) := by
      rcases hmem e1 h1 with ⟨h1, hn⟩ | ⟨hk, q', hq', e2⟩
      · exact h.consumed hfull e1 h1 p hp y hy
      · rw [e2, hk] at hp
        rw [hk]
        exact h.consumed hfull _ hq' p hp y hy
    rcases hmem e he with ⟨he, hn⟩ | ⟨hk, q', hq', e2⟩
    · rw [if_neg hn]; exact hold e he
    · rw [e2, hk, if_pos rfl]
      exact ⟨(hold _ hq').1, by simp⟩

end Verif.OMQ
