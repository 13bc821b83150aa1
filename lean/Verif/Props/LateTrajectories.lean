import Verif.LateTrajectoriesLemmas
import Verif.Props.Collators
import Mathlib.Data.List.Induction

/-!
# Trajectories that are added while others run (C115)

`MapBuilder::AddTrajectoryBuilder` (map_builder.cc 104-166) may be called at any time, so a trajectory can be added to the collator when data of others was
already delivered.
-/

namespace Verif.LateTrajectories

open Collators

set_option linter.unusedSectionVars false

variable {S D T : Type} [LinearOrder S] [LinearOrder T] [OrderBot T]

/-! ### Notions of the specification -/

/-- The trajectory was added and neither it was finished nor all were flushed since. -/
def Live (j : ℤ) (calls : List (Call S D)) : Prop := ∃ a ss b, calls = a ++ .add j ss :: b ∧ .finish j ∉ b ∧ .flush ∉ b

/-- What may be called after `pre`: ids increase, as `MapBuilder` counts them; data and the end come only for trajectories that have not ended. -/
def Allowed (pre : List (Call S D)) : Call S D → Prop
  | .add j ss => (∀ i ss', .add i ss' ∈ pre → i < j) ∧ ss.Nodup ∧ ss ≠ []
  | .data j _ => Live j pre
  | .finish j => Live j pre
  | .flush => True

/-- Each call is allowed after those before it. -/
def Orderly (calls : List (Call S D)) : Prop := ∀ pre o post, calls = pre ++ o :: post → Allowed pre o

/-- The data of each sensor comes in the order of time. -/
def Sorted (time : D → T) (sensor : D → S) (calls : List (Call S D)) : Prop :=
  ∀ j ss, .add j ss ∈ calls → ∀ s ∈ ss, (received sensor j s calls).Pairwise fun a b => time a ≤ time b

/-- No data of a trajectory is older than what the common collator had delivered when the trajectory was added. -/
def Current (time : D → T) (sensor : D → S) (calls : List (Call S D)) : Prop :=
  ∀ pre j ss post, calls = pre ++ .add j ss :: post → ∀ c out, (Shared.init : Shared S D T).run time sensor pre = some (c, out) →
    ∀ x ∈ out, ∀ s ∈ ss, ∀ d ∈ received sensor j s post, time x.2 ≤ time d

variable {time : D → T} {sensor : D → S}

/-! ### One call more -/

theorem snoc_split {α : Type} {pre a b : List α} {o x : α} (h : pre ++ [o] = a ++ x :: b) : (b = [] ∧ a = pre ∧ x = o) ∨ ∃ b', b = b' ++ [o] ∧ pre = a ++ x :: b' := by
  rcases List.eq_nil_or_concat b with rfl | ⟨b', y, rfl⟩
  · left
    have := List.append_inj' h rfl
    obtain ⟨h1, h2⟩ := this
    exact ⟨rfl, h1.symm, by simpa using h2.symm⟩
  · right
    rw [List.concat_eq_append] at h ⊢
    rw [show a ++ x :: (b' ++ [y]) = (a ++ x :: b') ++ [y] by simp] at h
    obtain ⟨h1, h2⟩ := List.append_inj' h rfl
    refine ⟨b', ?_, h1⟩
    simp only [List.cons.injEq, and_true] at h2
    rw [h2]

theorem received_append (j : ℤ) (s : S) (a b : List (Call S D)) : received sensor j s (a ++ b) = received sensor j s a ++ received sensor j s b := by
  induction a with
  | nil => rfl
  | cons o a ih =>
    cases o with
    | data i d =>
      simp only [List.cons_append, received, ih]
      split <;> rfl
    | add i l => simpa [received] using ih
    | finish i => simpa [received] using ih
    | flush => simpa [received] using ih

theorem Orderly.init {pre : List (Call S D)} {o : Call S D} (h : Orderly (pre ++ [o])) : Orderly pre := by
  intro a x b hab
  exact h a x (b ++ [o]) (by rw [hab]; simp)

theorem Orderly.last {pre : List (Call S D)} {o : Call S D} (h : Orderly (pre ++ [o])) : Allowed pre o := h pre o [] rfl

theorem Sorted.init {pre : List (Call S D)} {o : Call S D} (h : Sorted time sensor (pre ++ [o])) : Sorted time sensor pre := by
  intro j ss hm s hs
  have := h j ss (List.mem_append_left _ hm) s hs
  rw [received_append] at this
  exact (List.pairwise_append.1 this).1

theorem Current.init {pre : List (Call S D)} {o : Call S D} (h : Current time sensor (pre ++ [o])) : Current time sensor pre := by
  intro a j ss b hab c out hrun x hx s hs d hd
  refine h a j ss (b ++ [o]) (by rw [hab]; simp) c out hrun x hx s hs d ?_
  rw [received_append]
  exact List.mem_append_left _ hd

theorem live_snoc (j : ℤ) (pre : List (Call S D)) (o : Call S D) : Live j (pre ++ [o]) ↔ (∃ ss, o = .add j ss) ∨ (Live j pre ∧ o ≠ .finish j ∧ o ≠ .flush) := by
  constructor
  · rintro ⟨a, ss, b, h, h1, h2⟩
    rcases snoc_split h with ⟨rfl, rfl, h3⟩ | ⟨b', rfl, h3⟩
    · exact Or.inl ⟨ss, h3.symm⟩
    · refine Or.inr ⟨⟨a, ss, b', h3, fun hc => h1 (List.mem_append_left _ hc), fun hc => h2 (List.mem_append_left _ hc)⟩, ?_, ?_⟩
      · rintro rfl; exact h1 (by simp)
      · rintro rfl; exact h2 (by simp)
  · rintro (⟨ss, rfl⟩ | ⟨⟨a, ss, b, rfl, h1, h2⟩, h3, h4⟩)
    · exact ⟨pre, ss, [], rfl, by simp, by simp⟩
    · refine ⟨a, ss, b ++ [o], by simp, ?_, ?_⟩
      · intro hc
        rcases List.mem_append.1 hc with hc | hc
        · exact h1 hc
        · exact h3 (List.mem_singleton.1 hc).symm
      · intro hc
        rcases List.mem_append.1 hc with hc | hc
        · exact h2 hc
        · exact h4 (List.mem_singleton.1 hc).symm

theorem Live.added {j : ℤ} {pre : List (Call S D)} (h : Live j pre) : ∃ ss, .add j ss ∈ pre := by
  obtain ⟨a, ss, b, rfl, _⟩ := h
  exact ⟨ss, by simp⟩

/-- A trajectory is added once. -/
theorem add_once : ∀ {calls : List (Call S D)}, Orderly calls → ∀ {j : ℤ} {ss ss' : List S}, .add j ss ∈ calls → .add j ss' ∈ calls → ss = ss' := by
  intro calls
  induction calls using List.reverseRecOn with
  | nil => intro _ j ss ss' h; cases h
  | append_singleton pre o ih =>
    intro ho j ss ss' h h'
    have hl := ho.last
    rcases List.mem_append.1 h with h | h <;> rcases List.mem_append.1 h' with h' | h'
    · exact ih ho.init h h'
    · rw [← List.mem_singleton.1 h'] at hl
      exact absurd (hl.1 j ss h) (lt_irrefl _)
    · rw [← List.mem_singleton.1 h] at hl
      exact absurd (hl.1 j ss' h') (lt_irrefl _)
    · have := (List.mem_singleton.1 h).trans (List.mem_singleton.1 h').symm
      cases this
      rfl

theorem Orderly.nodup : ∀ {calls : List (Call S D)}, Orderly calls → ∀ {j : ℤ} {ss : List S}, .add j ss ∈ calls → ss.Nodup ∧ ss ≠ [] := by
  intro calls ho j ss h
  obtain ⟨a, b, rfl⟩ := List.append_of_mem h
  exact (ho a _ b rfl).2

theorem received_new : ∀ {pre : List (Call S D)}, Orderly pre → ∀ {j : ℤ}, (∀ ss, .add j ss ∉ pre) → ∀ s, received sensor j s pre = [] := by
  intro pre
  induction pre using List.reverseRecOn with
  | nil => intro _ j _ s; rfl
  | append_singleton pre o ih =>
    intro ho j hj s
    rw [received_append, ih ho.init (fun ss hc => hj ss (List.mem_append_left _ hc))]
    cases o with
    | data i d =>
      have hl := ho.last
      simp only [received, List.nil_append]
      by_cases hi : i = j
      · subst hi
        obtain ⟨ss, hss⟩ := Live.added hl
        exact absurd (List.mem_append_left _ hss) (hj ss)
      · simp [hi]
    | add i l => rfl
    | finish i => rfl
    | flush => rfl

/-! ### The state after orderly calls -/

/-- The sensor of a key. -/
def sid (k : Key S) : S := (ofLex k).2

theorem key_eta (k : Key S) : key (traj k) (sid k) = k := rfl

/-- The registered keys. -/
def Reg (pre : List (Call S D)) (k : Key S) : Prop := ∃ ss, .add (traj k) ss ∈ pre ∧ sid k ∈ ss

/-- The data for a key. -/
def Got (sensor : D → S) (pre : List (Call S D)) (k : Key S) : List D := received sensor (traj k) (sid k) pre

open Classical in
/-- The finished keys. -/
noncomputable def Fin' (pre : List (Call S D)) (k : Key S) : Bool := decide (¬ Live (traj k) pre)

/-- What was delivered before the trajectory of a key was added. -/
def Lim (time : D → T) (sensor : D → S) (pre : List (Call S D)) (x : Key S × D) (k : Key S) : Prop :=
  traj x.1 < traj k ∧ ∃ a ss b c out, pre = a ++ .add (traj k) ss :: b ∧ (Shared.init : Shared S D T).run time sensor a = some (c, out) ∧ x ∈ out

theorem Lim.snoc {pre : List (Call S D)} {o : Call S D} {x : Key S × D} {k : Key S} (h : Lim time sensor pre x k) : Lim time sensor (pre ++ [o]) x k := by
  obtain ⟨h1, a, ss, b, c, out, rfl, h2, h3⟩ := h
  exact ⟨h1, a, ss, b ++ [o], c, out, by simp, h2, h3⟩

theorem key_lt {a b : Key S} (h : traj a < traj b) : a < b := Prod.Lex.lt_iff.2 (Or.inl h)

/-- The common collator after orderly calls. -/
structure Good (time : D → T) (sensor : D → S) (pre : List (Call S D)) (c : Shared S D T) (out : List (Key S × D)) : Prop where
  run : (Shared.init : Shared S D T).run time sensor pre = some (c, out)
  inv : OMQ.InvL traj time (Lim time sensor pre) False (Reg pre) (Got sensor pre) (Fin' pre) c.queue out
  empty : (∀ k, Reg pre k → Fin' pre k = true) → c.queue.queues = []

/-- The keys that a collator remembers. -/
structure Known (pre : List (Call S D)) (c : Shared S D T) : Prop where
  keys : ∀ j ss, .add j ss ∈ pre → c.keys j = ss.map (key j)
  nokeys : ∀ j, (∀ ss, .add j ss ∉ pre) → c.keys j = []

theorem shared_snoc (pre : List (Call S D)) (o : Call S D) : (Shared.init : Shared S D T).run time sensor (pre ++ [o]) =
    ((Shared.init : Shared S D T).run time sensor pre).bind fun r => (r.1.step time sensor o).map fun r' => (r'.1, r.2 ++ r'.2) := by
  rw [shared_run_append]
  congr 1
  funext r
  simp only [Shared.run, Option.bind_eq_bind]
  cases r.1.step time sensor o with
  | none => rfl
  | some r' => simp

theorem step_known {pre : List (Call S D)} {o : Call S D} {c c' : Shared S D T} {new : List (Key S × D)} (ho : Orderly (pre ++ [o])) (h : Known pre c) (hs : c.step time sensor o = some (c', new)) :
    Known (pre ++ [o]) c' := by
  have hsame : (∀ j ss, o ≠ .add j ss) → c'.keys = c.keys → Known (pre ++ [o]) c' := by
    intro h1 h2
    refine ⟨?_, ?_⟩
    · intro j ss hm
      rcases List.mem_append.1 hm with hm | hm
      · rw [h2]; exact h.keys j ss hm
      · exact absurd (List.mem_singleton.1 hm).symm (h1 j ss)
    · intro j hm
      rw [h2]
      exact h.nokeys j (fun ss hc => hm ss (List.mem_append_left _ hc))
  cases o with
  | add j ss =>
    simp only [Shared.step, Option.bind_eq_bind, Option.bind_eq_some_iff, Option.some.injEq, Prod.mk.injEq] at hs
    obtain ⟨q, _, rfl, _⟩ := hs
    have hl := ho.last
    have hnone : c.keys j = [] := h.nokeys j (fun ss' hc => lt_irrefl _ (hl.1 j ss' hc))
    refine ⟨?_, ?_⟩
    · intro i ss' hm
      rcases List.mem_append.1 hm with hm' | hm'
      · have : i ≠ j := (hl.1 i ss' hm').ne
        simp only [if_neg this]
        exact h.keys i ss' hm'
      · have := List.mem_singleton.1 hm'
        cases this
        simp [hnone]
    · intro i hm
      have : i ≠ j := by
        rintro rfl
        exact hm ss (by simp)
      simp only [if_neg this]
      exact h.nokeys i (fun ss hc => hm ss (List.mem_append_left _ hc))
  | data j d =>
    simp only [Shared.step, Option.bind_eq_bind, Option.bind_eq_some_iff, Option.some.injEq, Prod.mk.injEq] at hs
    obtain ⟨q, _, rfl, _⟩ := hs
    exact hsame (by simp) rfl
  | finish j =>
    simp only [Shared.step, Option.bind_eq_bind, Option.bind_eq_some_iff, Option.some.injEq, Prod.mk.injEq] at hs
    obtain ⟨q, _, rfl, _⟩ := hs
    exact hsame (by simp) rfl
  | flush =>
    simp only [Shared.step, Option.bind_eq_bind, Option.bind_eq_some_iff, Option.some.injEq, Prod.mk.injEq] at hs
    obtain ⟨q, _, rfl, _⟩ := hs
    exact hsame (by simp) rfl

/-- Whatever is delivered has a registered key. -/
theorem run_known : ∀ {pre : List (Call S D)} {c : Shared S D T} {out : List (Key S × D)}, Orderly pre → (Shared.init : Shared S D T).run time sensor pre = some (c, out) →
    Known pre c ∧ OMQ.KeysIn (Reg pre) c.queue ∧ ∀ x ∈ out, Reg pre x.1 := by
  intro pre
  induction pre using List.reverseRecOn with
  | nil =>
    intro c out _ h
    cases h
    exact ⟨⟨by simp, by simp [Shared.init]⟩, by simp [OMQ.KeysIn, Shared.init, OMQ.init], by simp⟩
  | append_singleton pre o ih =>
    intro c out ho h
    rw [shared_snoc] at h
    simp only [Option.bind_eq_some_iff, Option.map_eq_some_iff, Prod.mk.injEq] at h
    obtain ⟨⟨c0, out0⟩, h1, ⟨c1, new⟩, h2, rfl, rfl⟩ := h
    obtain ⟨k0, q0, x0⟩ := ih ho.init h1
    have hmono : ∀ k, Reg pre k → Reg (pre ++ [o]) k := fun k ⟨ss, h, h'⟩ => ⟨ss, List.mem_append_left _ h, h'⟩
    have q0' : OMQ.KeysIn (Reg (pre ++ [o])) c0.queue := fun e he => hmono _ (q0 e he)
    refine ⟨step_known ho k0 h2, ?_⟩
    have : OMQ.KeysIn (Reg (pre ++ [o])) c1.queue ∧ ∀ x ∈ new, Reg (pre ++ [o]) x.1 := by
      cases o with
      | add j ss =>
        simp only [Shared.step, Option.bind_eq_bind, Option.bind_eq_some_iff, Option.some.injEq, Prod.mk.injEq] at h2
        obtain ⟨q, h2, rfl, rfl⟩ := h2
        refine ⟨OMQ.addQueues_keys _ q0' ?_ h2, by simp⟩
        intro k hk
        obtain ⟨s, hs, rfl⟩ := List.mem_map.1 hk
        exact ⟨ss, by simp [key, traj], hs⟩
      | data j d =>
        simp only [Shared.step, Option.bind_eq_bind, Option.bind_eq_some_iff, Option.some.injEq, Prod.mk.injEq] at h2
        obtain ⟨q, h2, rfl, rfl⟩ := h2
        exact OMQ.add_keys q0' h2
      | finish j =>
        simp only [Shared.step, Option.bind_eq_bind, Option.bind_eq_some_iff, Option.some.injEq, Prod.mk.injEq] at h2
        obtain ⟨q, h2, rfl, rfl⟩ := h2
        exact OMQ.markAll_keys _ q0' h2
      | flush =>
        simp only [Shared.step, Option.bind_eq_bind, Option.bind_eq_some_iff, Option.some.injEq, Prod.mk.injEq] at h2
        obtain ⟨q, h2, rfl, rfl⟩ := h2
        exact OMQ.markAll_keys _ q0' h2
    refine ⟨this.1, ?_⟩
    intro x hx
    rcases List.mem_append.1 hx with hx | hx
    · exact hmono _ (x0 x hx)
    · exact this.2 x hx


theorem live_same {j : ℤ} {pre : List (Call S D)} {o : Call S D} (h1 : ∀ ss, o ≠ .add j ss) (h2 : o ≠ .finish j) (h3 : o ≠ .flush) : Live j (pre ++ [o]) ↔ Live j pre := by
  rw [live_snoc]
  constructor
  · rintro (⟨ss, h⟩ | ⟨h, _⟩)
    · exact absurd h (h1 ss)
    · exact h
  · exact fun h => Or.inr ⟨h, h2, h3⟩

theorem fin_same {pre : List (Call S D)} {o : Call S D} {k : Key S} (h : Live (traj k) (pre ++ [o]) ↔ Live (traj k) pre) : Fin' (pre ++ [o]) k = Fin' pre k := by
  unfold Fin'
  rw [decide_eq_decide, h]

theorem fin_live {pre : List (Call S D)} {k : Key S} : Fin' pre k = false ↔ Live (traj k) pre := by
  unfold Fin'
  simp

theorem fin_not_live {pre : List (Call S D)} {k : Key S} : Fin' pre k = true ↔ ¬ Live (traj k) pre := by
  unfold Fin'
  simp

theorem reg_mono {pre : List (Call S D)} {o : Call S D} {k : Key S} (h : Reg pre k) : Reg (pre ++ [o]) k := by
  obtain ⟨ss, h, h'⟩ := h
  exact ⟨ss, List.mem_append_left _ h, h'⟩

theorem reg_same {pre : List (Call S D)} {o : Call S D} (h : ∀ j ss, o ≠ .add j ss) : Reg (pre ++ [o]) = Reg pre := by
  funext k
  apply propext
  constructor
  · rintro ⟨ss, hm, hk⟩
    rcases List.mem_append.1 hm with hm | hm
    · exact ⟨ss, hm, hk⟩
    · exact absurd (List.mem_singleton.1 hm).symm (h _ ss)
  · exact reg_mono

theorem reg_live {pre : List (Call S D)} {k : Key S} (hl : Live (traj k) pre) {ss : List S} (ho : Orderly pre) (hs : .add (traj k) ss ∈ pre) : Reg pre k ↔ sid k ∈ ss := by
  constructor
  · rintro ⟨ss', h, h'⟩
    rwa [add_once ho h hs] at h'
  · exact fun h => ⟨ss, hs, h⟩

theorem got_same {pre : List (Call S D)} {o : Call S D} {k : Key S} (h : ∀ d, o = .data (traj k) d → sensor d ≠ sid k) : Got sensor (pre ++ [o]) k = Got sensor pre k := by
  unfold Got
  rw [received_append]
  cases o with
  | data i d =>
    simp only [received]
    rw [if_neg, List.append_nil]
    rintro ⟨rfl, h2⟩
    exact h d rfl h2
  | add i l => simp [received]
  | finish i => simp [received]
  | flush => simp [received]

theorem got_data {pre : List (Call S D)} {d : D} {k : Key S} (h : sensor d = sid k) : Got sensor (pre ++ [.data (traj k) d]) k = Got sensor pre k ++ [d] := by
  unfold Got
  rw [received_append]
  simp [received, h]

/-- Data that is older than what was delivered before its trajectory was added. -/
def Stale (time : D → T) (sensor : D → S) (pre : List (Call S D)) (out : List (Key S × D)) (o : Call S D) : Prop :=
  ∃ j d, o = .data j d ∧ Reg pre (key j (sensor d)) ∧ ∃ x ∈ out, Lim time sensor pre x (key j (sensor d)) ∧ time d < time x.2

theorem good_init : Good time sensor ([] : List (Call S D)) (Shared.init : Shared S D T) [] := by
  refine ⟨rfl, ⟨by simp [Shared.init, OMQ.init], by simp [Shared.init, OMQ.init], by simp [Shared.init, OMQ.init], ?_, ?_, by simp [Shared.init, OMQ.init], ?_, ?_, ?_, ?_,
    by simp, by simp, by simp, Or.inl rfl, False.elim, by simp⟩, fun _ => rfl⟩
  · rintro k ⟨ss, h, _⟩; cases h
  · rintro k ⟨ss, h, _⟩; cases h
  · rintro k ⟨ss, h, _⟩; cases h
  · rintro k st ⟨ss, h, _⟩; cases h
  · intro j st h; cases h
  · rintro k st ⟨ss, h, _⟩; cases h

/-- One call more, if it does not bring stale data. -/
theorem step_good {pre : List (Call S D)} {o : Call S D} {c : Shared S D T} {out : List (Key S × D)} (ho : Orderly (pre ++ [o])) (hs : Sorted time sensor (pre ++ [o])) (g : Good time sensor pre c out)
    (hst : ¬ Stale time sensor pre out o) : ∃ c' new, Good time sensor (pre ++ [o]) c' (out ++ new) := by
  have hrun : ∀ c' new, c.step time sensor o = some (c', new) → (Shared.init : Shared S D T).run time sensor (pre ++ [o]) = some (c', out ++ new) := by
    intro c' new h
    rw [shared_snoc, g.run]
    simp [h]
  obtain ⟨hkn, hkq, _⟩ := run_known ho.init g.run
  have hw := g.inv.weaken (lim' := Lim time sensor (pre ++ [o])) (fun x k h => h.snoc)
  cases o with
  | add j ss =>
    have hl := ho.last
    obtain ⟨h1, h2, h3⟩ := hl
    have hnew : ∀ k, Reg pre k → traj k ≠ j := fun k ⟨ss', hm, _⟩ => (h1 _ ss' hm).ne
    have hold : ∀ k, Reg pre k → Fin' (pre ++ [.add j ss]) k = Fin' pre k := by
      intro k hr
      refine fin_same (live_same ?_ (by simp) (by simp))
      intro ss' hc
      cases hc
      exact hnew k hr rfl
    have i1 := hw.congr (added' := Got sensor (pre ++ [.add j ss])) (fin' := Fin' (pre ++ [.add j ss])) (fun k _ => got_same (by simp)) hold
    have hks : ∀ k ∈ ss.map (key j), traj k = j := by
      intro k hk
      obtain ⟨s, _, rfl⟩ := List.mem_map.1 hk
      rfl
    have hlive : ∀ k ∈ ss.map (key j), Fin' (pre ++ [.add j ss]) k = false := by
      intro k hk
      rw [fin_live, live_snoc, hks k hk]
      exact Or.inl ⟨ss, rfl⟩
    obtain ⟨q, e1, e2, e3, _⟩ := i1.register (ks := ss.map (key j)) (j := j) (h2.map (fun a b hab => (key_inj.1 hab).2)) hks hnew (by
        intro k hk
        rw [got_same (by simp)]
        unfold Got
        rw [hks k hk]
        exact received_new ho.init (fun ss' hc => lt_irrefl _ (h1 j ss' hc)) _) hlive (by
        intro x hx k hk
        obtain ⟨ss', hm, _⟩ := g.inv.outsReg x hx
        exact ⟨by rw [hks k hk]; exact h1 _ ss' hm, pre, ss, [], c, out, by rw [hks k hk], g.run, hx⟩)
    have hstep : c.step time sensor (.add j ss) = some (⟨q, fun i => if i = j then c.keys j ++ ss.map (key j) else c.keys i⟩, []) := by
      simp [Shared.step, e1]
    refine ⟨_, [], hrun _ _ hstep, ?_, ?_⟩
    · rw [List.append_nil]
      have hreg : Reg (pre ++ [.add j ss]) = fun k => Reg pre k ∨ k ∈ ss.map (key j) := by
        funext k
        apply propext
        constructor
        · rintro ⟨ss', hm, hk⟩
          rcases List.mem_append.1 hm with hm | hm
          · exact Or.inl ⟨ss', hm, hk⟩
          · have := List.mem_singleton.1 hm
            cases this
            exact Or.inr (List.mem_map.2 ⟨_, hk, key_eta k⟩)
        · rintro (h | h)
          · exact reg_mono h
          · obtain ⟨s, hs', rfl⟩ := List.mem_map.1 h
            exact ⟨ss, by simp [key, traj], hs'⟩
      rw [hreg]
      exact e2
    · intro hall
      obtain ⟨s, hs'⟩ := List.exists_mem_of_ne_nil ss h3
      have h4 := hlive (key j s) (List.mem_map.2 ⟨s, hs', rfl⟩)
      rw [hall (key j s) ⟨ss, by simp [key, traj], hs'⟩] at h4
      cases h4
  | data j d =>
    have hl : Live j pre := ho.last
    have hfin : ∀ k, Fin' (pre ++ [.data j d]) k = Fin' pre k := fun k => fin_same (live_same (by simp) (by simp) (by simp))
    have hreg : Reg (pre ++ [.data j d]) = Reg pre := reg_same (by simp)
    by_cases hr : Reg pre (key j (sensor d))
    · have hf : Fin' pre (key j (sensor d)) = false := fin_live.2 hl
      have hd : ∀ x ∈ Got sensor pre (key j (sensor d)), time x ≤ time d := by
        obtain ⟨ss, hm, hsm⟩ := hr
        have := hs j ss (List.mem_append_left _ hm) (sensor d) hsm
        rw [received_append, List.pairwise_append] at this
        intro x hx
        exact this.2.2 x hx d (by simp [received])
      have hle : ∀ x ∈ out, Lim time sensor (pre ++ [.data j d]) x (key j (sensor d)) → OMQ.Le time x (key j (sensor d), d) := by
        rintro x hx ⟨h1, a, ss, b, c0, out0, h2, h3, h4⟩
        have hlim : Lim time sensor pre x (key j (sensor d)) := by
          rcases snoc_split h2 with ⟨_, _, h5⟩ | ⟨b', _, h5⟩
          · cases h5
          · exact ⟨h1, a, ss, b', c0, out0, h5, h3, h4⟩
        have : time x.2 ≤ time d := by
          by_contra hc
          exact hst ⟨j, d, rfl, hr, x, hx, hlim, not_le.1 hc⟩
        rcases this.lt_or_eq with h | h
        · exact Or.inl h
        · exact Or.inr ⟨h, (key_lt h1).le⟩
      obtain ⟨q, new, e1, e2, e3⟩ := OMQ.add_spec hw hr hf hd hle
      have hstep : c.step time sensor (.data j d) = some (⟨q, c.keys⟩, new) := by simp [Shared.step, e1]
      have i2 : OMQ.InvL traj time (Lim time sensor (pre ++ [.data j d])) False (Reg (pre ++ [.data j d])) (Got sensor (pre ++ [.data j d])) (Fin' (pre ++ [.data j d])) q (out ++ new) := by
        rw [hreg]
        refine e2.congr ?_ (fun k _ => hfin k)
        intro k _
        by_cases hk : k = key j (sensor d)
        · subst hk
          rw [if_pos rfl]
          exact got_data rfl
        · rw [if_neg hk]
          apply got_same
          intro d' hd'
          cases hd'
          intro hc
          exact hk (by rw [hc]; rfl)
      exact ⟨_, new, hrun _ _ hstep, i2, fun hall => e3.empty i2 hall⟩
    · have e1 := OMQ.add_unknown (d := d) hw hr
      have hstep : c.step time sensor (.data j d) = some (⟨c.queue, c.keys⟩, []) := by simp [Shared.step, e1]
      refine ⟨_, [], hrun _ _ hstep, ?_, ?_⟩
      · rw [hreg, List.append_nil]
        refine hw.congr ?_ (fun k _ => hfin k)
        intro k hk
        apply got_same
        intro d' hd'
        cases hd'
        intro hc
        refine hr ?_
        rw [hc]
        exact hk
      · intro hall
        apply g.empty
        intro k hk
        rw [← hfin k]
        exact hall k (reg_mono hk)
  | finish j =>
    have hl : Live j pre := ho.last
    obtain ⟨ss, hss⟩ := hl.added
    have hk := hkn.keys j ss hss
    obtain ⟨hnd, hne⟩ := ho.init.nodup hss
    have hreg : Reg (pre ++ [.finish j]) = Reg pre := reg_same (by simp)
    obtain ⟨q, new, e1, e2, e3, _⟩ := OMQ.markAll_spec (ss.map (key j)) c.queue (Fin' pre) out hw (hnd.map (fun a b hab => (key_inj.1 hab).2)) (by
      intro k hk
      obtain ⟨s, hs', rfl⟩ := List.mem_map.1 hk
      exact ⟨⟨ss, hss, hs'⟩, fin_live.2 hl⟩)
    have hstep : c.step time sensor (.finish j) = some (⟨q, c.keys⟩, new) := by simp [Shared.step, hk, e1]
    have i2 : OMQ.InvL traj time (Lim time sensor (pre ++ [.finish j])) False (Reg (pre ++ [.finish j])) (Got sensor (pre ++ [.finish j])) (Fin' (pre ++ [.finish j])) q (out ++ new) := by
      rw [hreg]
      refine e2.congr (fun k _ => got_same (by simp)) ?_
      intro k hr
      by_cases hkj : traj k = j
      · have hmem : k ∈ ss.map (key j) := by
          obtain ⟨ss', hm, hin⟩ := hr
          rw [hkj] at hm
          rw [add_once ho.init hm hss] at hin
          exact List.mem_map.2 ⟨_, hin, by rw [← hkj]; rfl⟩
        rw [fin_not_live.2]
        · simp [hmem]
        · rw [live_snoc]
          rintro (⟨_, h⟩ | ⟨_, h, _⟩)
          · cases h
          · exact h (by rw [hkj])
      · have hmem : k ∉ ss.map (key j) := by
          intro hc
          obtain ⟨s, _, rfl⟩ := List.mem_map.1 hc
          exact hkj rfl
        rw [fin_same (live_same (by simp) (by intro hc; cases hc; exact hkj rfl) (by simp))]
        simp [hmem]
    refine ⟨_, new, hrun _ _ hstep, i2, fun hall => (e3 ?_).empty i2 hall⟩
    simpa using hne
  | flush =>
    obtain ⟨q, new, e1, e2, e3⟩ := OMQ.flush_spec hw g.empty
    have hstep : c.step time sensor .flush = some (⟨q, c.keys⟩, new) := by simp [Shared.step, e1]
    refine ⟨_, new, hrun _ _ hstep, ?_, fun _ => e3⟩
    rw [reg_same (by simp)]
    refine e2.congr (fun k _ => got_same (by simp)) ?_
    intro k _
    rw [fin_not_live, live_snoc]
    rintro (⟨_, h⟩ | ⟨_, _, h⟩)
    · cases h
    · exact h rfl

/-- The collator has aborted, or it holds stale data and delivers nothing any more; `n` counts the calls before the stale data. -/
def Doom (time : D → T) (sensor : D → S) (pre : List (Call S D)) : Prop :=
  ∀ c out, (Shared.init : Shared S D T).run time sensor pre = some (c, out) →
    OMQ.Doomed time c.queue ∧ OMQ.Held c.queue ∧ OMQ.OpenIn (fun k => Live (traj k) pre) c.queue ∧ ∃ a b ca, pre = a ++ b ∧ Good time sensor a ca out

theorem step_doom {pre : List (Call S D)} {o : Call S D} (ho : Orderly (pre ++ [o])) (h : Doom time sensor pre) : Doom (T := T) time sensor (pre ++ [o]) := by
  intro c out hr
  rw [shared_snoc] at hr
  simp only [Option.bind_eq_some_iff, Option.map_eq_some_iff, Prod.mk.injEq] at hr
  obtain ⟨⟨c0, out0⟩, h1, ⟨c1, new⟩, h2, rfl, rfl⟩ := hr
  obtain ⟨hd, hh, hop, a, b, ca, hab, hg⟩ := h c0 out0 h1
  obtain ⟨hkn, hkq, _⟩ := run_known ho.init h1
  have hrest : new = [] → ∃ a b ca, pre ++ [o] = a ++ b ∧ Good time sensor a ca (out0 ++ new) := by
    rintro rfl
    exact ⟨a, b ++ [o], ca, by rw [hab]; simp, by simpa using hg⟩
  cases o with
  | add j ss =>
    simp only [Shared.step, Option.bind_eq_bind, Option.bind_eq_some_iff, Option.some.injEq, Prod.mk.injEq] at h2
    obtain ⟨q, h2, rfl, rfl⟩ := h2
    obtain ⟨l1, l2, l3⟩ := ho.last
    obtain ⟨q', e1, e2, e3, e4⟩ := OMQ.register_doomed hd hh hop (ks := ss.map (key j)) (l2.map (fun a b hab => (key_inj.1 hab).2)) (by
      intro k hk hc
      obtain ⟨s, _, rfl⟩ := List.mem_map.1 hk
      obtain ⟨e, he, hek⟩ := List.mem_map.1 hc
      obtain ⟨ss', hm, _⟩ := hkq e he
      rw [hek] at hm
      exact lt_irrefl _ (l1 _ ss' hm))
    rw [h2] at e1
    cases e1
    refine ⟨e2, e3, ?_, hrest rfl⟩
    intro e he hf
    rw [live_snoc]
    rcases e4 e he hf with h | h
    · exact Or.inr ⟨h, by simp, by simp⟩
    · obtain ⟨s, _, hs⟩ := List.mem_map.1 h
      exact Or.inl ⟨ss, by rw [← hs]; rfl⟩
  | data j d =>
    simp only [Shared.step, Option.bind_eq_bind, Option.bind_eq_some_iff, Option.some.injEq, Prod.mk.injEq] at h2
    obtain ⟨r, h2, rfl, rfl⟩ := h2
    rcases OMQ.add_doomed (traj := traj) hd (key j (sensor d)) d hop hh with e1 | ⟨q', e1, e2, e3, e4⟩
    · rw [h2] at e1; cases e1
    · rw [h2] at e1
      cases e1
      exact ⟨e2, e3, fun e he hf => (live_same (by simp) (by simp) (by simp)).2 (e4 e he hf), hrest rfl⟩
  | finish j =>
    simp only [Shared.step, Option.bind_eq_bind, Option.bind_eq_some_iff, Option.some.injEq, Prod.mk.injEq] at h2
    obtain ⟨r, h2, rfl, rfl⟩ := h2
    rcases OMQ.markAll_doomed (traj := traj) (c0.keys j) c0.queue (fun k => Live (traj k) pre ∧ Reg pre k) hd (fun e he hf => ⟨hop e he hf, hkq e he⟩) hh with e1 | ⟨q', e1, e2, e3, e4⟩
    · rw [h2] at e1; cases e1
    · rw [h2] at e1
      cases e1
      refine ⟨e2, e3, ?_, hrest rfl⟩
      intro e he hf
      obtain ⟨⟨h3, ss, h4, h5⟩, h6⟩ := e4 e he hf
      refine (live_same (by simp) ?_ (by simp)).2 h3
      intro hc
      cases hc
      rw [hkn.keys _ ss h4] at h6
      exact h6 (List.mem_map.2 ⟨_, h5, rfl⟩)
  | flush =>
    simp only [Shared.step, Option.bind_eq_bind, Option.bind_eq_some_iff, Option.some.injEq, Prod.mk.injEq] at h2
    obtain ⟨r, h2, rfl, rfl⟩ := h2
    rw [OMQ.flush_doomed hd hh] at h2
    cases h2

/-- Stale data dooms the collator. -/
theorem stale_doom {pre : List (Call S D)} {o : Call S D} {c : Shared S D T} {out : List (Key S × D)} (ho : Orderly (pre ++ [o])) (hs : Sorted time sensor (pre ++ [o])) (g : Good time sensor pre c out)
    (hst : Stale time sensor pre out o) : Doom time sensor (pre ++ [o]) := by
  obtain ⟨j, d, rfl, hr, x, hx, _, hlt⟩ := hst
  have hl : Live j pre := ho.last
  intro c' out' hrun
  rw [shared_snoc, g.run] at hrun
  simp only [Option.bind_some, Option.map_eq_some_iff, Prod.mk.injEq, Shared.step, Option.bind_eq_bind, Option.bind_eq_some_iff, Option.some.injEq] at hrun
  obtain ⟨⟨c1, new⟩, ⟨r, h2, rfl, rfl⟩, rfl, rfl⟩ := hrun
  obtain ⟨q, hm, hqf⟩ := g.inv.mem_of_open hr (fin_live.2 hl)
  unfold OMQ.add at h2
  rw [OMQ.find_of_mem g.inv.keys hm] at h2
  simp only at h2
  have hlast : time d < c.queue.last := lt_of_lt_of_le hlt (g.inv.lastTop x hx)
  have hd : OMQ.Doomed time { c.queue with queues := OMQ.setData (key j (sensor d)) (q.data ++ [d]) c.queue.queues } := by
    refine ⟨by rw [OMQ.setData_keys]; exact g.inv.keys, ?_⟩
    have hmem : (key j (sensor d), ({ q with data := q.data ++ [d] } : OMQ.Queue D)) ∈ OMQ.setData (key j (sensor d)) (q.data ++ [d]) c.queue.queues := List.mem_map.2 ⟨_, hm, if_pos rfl⟩
    cases hq : q.data with
    | nil => exact ⟨_, _, d, [], by rw [hq] at hmem; exact hmem, rfl, hlast⟩
    | cons y tl =>
      refine ⟨_, _, y, tl ++ [d], by rw [hq] at hmem; exact hmem, rfl, lt_of_le_of_lt ?_ hlast⟩
      obtain ⟨ss, hma, hsm⟩ := hr
      have hp := hs j ss (List.mem_append_left _ hma) (sensor d) hsm
      rw [received_append, List.pairwise_append] at hp
      refine hp.2.2 y ?_ d (by simp [received])
      exact (g.inv.suff _ hm).subset (by simp [hq])
  rcases OMQ.dispatch_doomed (traj := traj) hd with e1 | ⟨q', e1, e2, e3, e4, _⟩
  · rw [h2] at e1; cases e1
  · rw [h2] at e1
    cases e1
    refine ⟨e2, e3, ?_, pre, [.data j d], c, rfl, by simpa using g⟩
    intro e he hf
    rw [live_same (by simp) (by simp) (by simp)]
    rcases OMQ.mem_setData (e4.subset he) with ⟨he', _⟩ | ⟨hk, _⟩
    · exact fin_live.1 ((g.inv.finq e he').symm.trans hf)
    · rw [hk]; exact hl

/-- Either nothing was stale, or the collator is doomed. -/
theorem good_or_doom : ∀ {calls : List (Call S D)}, Orderly calls → Sorted time sensor calls →
    (∃ (c : Shared S D T) (out : _), Good time sensor calls c out ∧ Current time sensor calls) ∨ (Doom (T := T) time sensor calls ∧ ¬ Current time sensor calls) := by
  intro calls
  induction calls using List.reverseRecOn with
  | nil =>
    intro _ _
    refine Or.inl ⟨_, _, good_init, ?_⟩
    intro a j ss b h
    cases a <;> cases h
  | append_singleton pre o ih =>
    intro ho hs
    rcases ih ho.init hs.init with ⟨c, out, g, hc⟩ | ⟨hd, hc⟩
    · by_cases hst : Stale time sensor pre out o
      · refine Or.inr ⟨stale_doom ho hs g hst, ?_⟩
        obtain ⟨j, d, rfl, ⟨ss, hm, hsm⟩, x, hx, ⟨h1, a, ss', b, c0, out0, h2, h3, h4⟩, hlt⟩ := hst
        intro hcur
        have hmem : (.add j ss' : Call S D) ∈ pre := by rw [h2]; simp [key, traj]
        have hss : ss = ss' := add_once ho.init hm hmem
        refine absurd hlt (not_lt.2 (hcur a j ss' (b ++ [.data j d]) ?_ c0 out0 h3 x h4 (sensor d) (hss ▸ hsm) d ?_))
        · rw [h2]; simp [key, traj]
        · rw [received_append]; simp [received]
      · obtain ⟨c', new, g'⟩ := step_good ho hs g hst
        refine Or.inl ⟨c', _, g', ?_⟩
        intro a j ss b hab c0 out0 hrun x hx s hsm d hd
        rcases snoc_split hab with ⟨rfl, _, _⟩ | ⟨b', rfl, hpre⟩
        · cases hd
        · rw [received_append] at hd
          rcases List.mem_append.1 hd with hd1 | hd1
          · exact hc a j ss b' hpre c0 out0 hrun x hx s hsm d hd1
          · cases o with
            | data i d' =>
              simp only [received] at hd1
              by_cases hi : i = j ∧ sensor d' = s
              · rw [if_pos hi] at hd1
                obtain ⟨rfl, rfl⟩ := hi
                rw [List.mem_singleton.1 hd1]
                by_contra hlt
                have hoa : Orderly a := by
                  intro p y q hpq
                  exact ho.init p y (q ++ .add i ss :: b') (by rw [hpre, hpq]; simp)
                obtain ⟨ss1, hm1, _⟩ := (run_known hoa hrun).2.2 x hx
                have hlt1 : traj x.1 < i := (ho.init a _ b' hpre).1 _ ss1 hm1
                have hpref : out0 <+: out := by
                  have := g.run
                  rw [hpre, shared_run_append, hrun] at this
                  simp only [Option.bind_some, Option.map_eq_some_iff, Prod.mk.injEq] at this
                  obtain ⟨_, _, _, rfl⟩ := this
                  exact List.prefix_append _ _
                refine hst ⟨i, d', rfl, ⟨ss, ?_, hsm⟩, x, hpref.subset hx, ⟨hlt1, a, ss, b', c0, out0, hpre, hrun, hx⟩, not_le.1 hlt⟩
                rw [hpre]
                simp [key, traj]
              · rw [if_neg hi] at hd1; cases hd1
            | add i l => cases hd1
            | finish i => cases hd1
            | flush => cases hd1
    · exact Or.inr ⟨step_doom ho hd, fun h => hc h.init⟩

/-! ### The collator by trajectory -/

/-- The part of a trajectory after orderly calls. -/
def PartGood (time : D → T) (sensor : D → S) (j : ℤ) (pre : List (Call S D)) : Prop :=
  ((∀ ss, .add j ss ∉ pre) → partRun time sensor j ((none, []) : Part S D T) pre = some ((none, []), [])) ∧
  ∀ ss, .add j ss ∈ pre → ∃ (q : Queues S D T) (out : _), partRun time sensor j ((none, []) : Part S D T) pre = some ((some q, ss.map (key j)), out) ∧
    OMQ.Inv traj time (fun k => Reg pre k ∧ traj k = j) (Got sensor pre) (Fin' pre) q out ∧ OMQ.Waiting traj time q ∧
    ((∀ k, Reg pre k ∧ traj k = j → Fin' pre k = true) → q.queues = [])

theorem part_snoc (j : ℤ) (pre : List (Call S D)) (o : Call S D) : partRun time sensor j ((none, []) : Part S D T) (pre ++ [o]) =
    (partRun time sensor j ((none, []) : Part S D T) pre).bind fun r => (partStep time sensor j r.1 o).map fun r' => (r'.1, r.2 ++ r'.2) := by
  rw [partRun_append]
  congr 1
  funext r
  simp only [partRun]
  cases partStep time sensor j r.1 o with
  | none => rfl
  | some r' => simp

theorem part_good : ∀ {pre : List (Call S D)}, Orderly pre → Sorted time sensor pre → ∀ j, PartGood (T := T) time sensor j pre := by
  intro pre
  induction pre using List.reverseRecOn with
  | nil => intro _ _ j; exact ⟨fun _ => rfl, by simp⟩
  | append_singleton pre o ih =>
    intro ho hs j
    obtain ⟨p1, p2⟩ := ih ho.init hs.init j
    by_cases hab : About j o = false
    · -- a call for another trajectory
      have hst : ∀ p : Part S D T, partStep time sensor j p o = some (p, []) := fun p => partStep_other hab
      have hmem : ∀ ss, .add j ss ∈ pre ++ [o] ↔ .add j ss ∈ pre := by
        intro ss
        rw [List.mem_append, List.mem_singleton]
        constructor
        · rintro (h | rfl)
          · exact h
          · simp [About] at hab
        · exact Or.inl
      refine ⟨?_, ?_⟩
      · intro h
        rw [part_snoc, p1 (fun ss hc => h ss ((hmem ss).2 hc))]
        simp [hst]
      · intro ss h
        obtain ⟨q, out, e1, e2, e3, e4⟩ := p2 ss ((hmem ss).1 h)
        have hreg : (fun k => Reg (pre ++ [o]) k ∧ traj k = j) = fun k => Reg pre k ∧ traj k = j := by
          funext k
          apply propext
          constructor
          · rintro ⟨⟨ss', h1, h2⟩, rfl⟩
            exact ⟨⟨ss', (hmem ss').1 h1, h2⟩, rfl⟩
          · rintro ⟨h1, h2⟩
            exact ⟨reg_mono h1, h2⟩
        have hfin : ∀ k, traj k = j → Fin' (pre ++ [o]) k = Fin' pre k := by
          rintro k rfl
          apply fin_same
          apply live_same
          · rintro ss' rfl; simp [About] at hab
          · rintro rfl; simp [About] at hab
          · rintro rfl; simp [About] at hab
        refine ⟨q, out, by rw [part_snoc, e1]; simp [hst], ?_, e3, ?_⟩
        · rw [hreg]
          refine e2.congr ?_ (fun k hk => hfin k hk.2)
          rintro k ⟨_, rfl⟩
          apply got_same
          rintro d rfl
          simp [About] at hab
        · intro hall
          apply e4
          rintro k ⟨hk, hj⟩
          rw [← hfin k hj]
          exact hall k ⟨reg_mono hk, hj⟩
    · cases o with
      | add i l =>
        have hij : i = j := by simpa [About] using hab
        subst hij
        obtain ⟨l1, l2, l3⟩ := ho.last
        have hnot : ∀ ss, .add i ss ∉ pre := fun ss hc => lt_irrefl _ (l1 i ss hc)
        refine ⟨fun h => absurd (by simp) (h l), ?_⟩
        intro ss hss
        have hsl : ss = l := add_once ho hss (by simp)
        subst hsl
        have hnd : (ss.map (key i)).Nodup := l2.map (fun a b hab => (key_inj.1 hab).2)
        obtain ⟨q, e1, e2, e3⟩ := OMQ.init_inv (T := T) (D := D) traj time (ss.map (key i)) hnd
        have hreg : (fun k => Reg (pre ++ [.add i ss]) k ∧ traj k = i) = fun k => k ∈ ss.map (key i) := by
          funext k
          apply propext
          constructor
          · rintro ⟨⟨ss', h1, h2⟩, rfl⟩
            rw [add_once ho h1 hss] at h2
            exact List.mem_map.2 ⟨_, h2, rfl⟩
          · intro h
            obtain ⟨s, hs', rfl⟩ := List.mem_map.1 h
            exact ⟨⟨ss, hss, hs'⟩, rfl⟩
        have hfin : ∀ k ∈ ss.map (key i), Fin' (pre ++ [.add i ss]) k = false := by
          intro k hk
          obtain ⟨s, _, rfl⟩ := List.mem_map.1 hk
          rw [fin_live, live_snoc]
          exact Or.inl ⟨ss, rfl⟩
        refine ⟨q, [], ?_, ?_, ?_, ?_⟩
        · rw [part_snoc, p1 hnot]
          simp [partStep, l3, e1]
        · rw [hreg]
          refine e2.congr ?_ hfin
          intro k hk
          obtain ⟨s, _, rfl⟩ := List.mem_map.1 hk
          rw [got_same (by simp)]
          exact received_new ho.init hnot s
        · cases hq : q.queues with
          | nil => exact Or.inl hq
          | cons e r =>
            right
            have he : e ∈ q.queues := by rw [hq]; exact List.mem_cons_self
            refine ⟨e.1, e.2, he, e2.finq e he, Or.inl ?_⟩
            simpa using e2.suff e he
        · intro hall
          obtain ⟨s, hs'⟩ := List.exists_mem_of_ne_nil ss l3
          have hk : key i s ∈ ss.map (key i) := List.mem_map.2 ⟨s, hs', rfl⟩
          have h4 := hfin _ hk
          rw [hall (key i s) ⟨⟨ss, hss, hs'⟩, rfl⟩] at h4
          cases h4
      | data i d =>
        have hij : i = j := by simpa [About] using hab
        subst hij
        have hl : Live i pre := ho.last
        have hmem : ∀ ss, .add i ss ∈ pre ++ [.data i d] ↔ .add i ss ∈ pre := by simp
        obtain ⟨ss0, hss0⟩ := hl.added
        refine ⟨fun h => absurd (List.mem_append_left _ hss0) (h ss0), ?_⟩
        intro ss hss
        obtain ⟨q, out, e1, e2, e3, e4⟩ := p2 ss ((hmem ss).1 hss)
        have hreg : Reg (pre ++ [.data i d]) = Reg pre := reg_same (by simp)
        have hfin : ∀ k, Fin' (pre ++ [.data i d]) k = Fin' pre k := fun k => fin_same (live_same (by simp) (by simp) (by simp))
        by_cases hr : Reg pre (key i (sensor d))
        · have hd : ∀ x ∈ Got sensor pre (key i (sensor d)), time x ≤ time d := by
            obtain ⟨ss, hm, hsm⟩ := hr
            have := hs i ss (List.mem_append_left _ hm) (sensor d) hsm
            rw [received_append, List.pairwise_append] at this
            intro x hx
            exact this.2.2 x hx d (by simp [received])
          obtain ⟨q', new, f1, f2, f3⟩ := OMQ.add_spec e2 (k := key i (sensor d)) ⟨hr, rfl⟩ (fin_live.2 hl) hd (fun _ _ hc => hc.elim)
          have i2 : OMQ.Inv traj time (fun k => Reg (pre ++ [.data i d]) k ∧ traj k = i) (Got sensor (pre ++ [.data i d])) (Fin' (pre ++ [.data i d])) q' (out ++ new) := by
            rw [hreg]
            refine f2.congr ?_ (fun k _ => hfin k)
            intro k _
            by_cases hk : k = key i (sensor d)
            · subst hk
              rw [if_pos rfl]
              exact got_data rfl
            · rw [if_neg hk]
              apply got_same
              intro d' hd'
              cases hd'
              intro hc
              exact hk (by rw [hc]; rfl)
          refine ⟨q', out ++ new, ?_, i2, f3.waiting, fun hall => f3.empty i2 hall⟩
          rw [part_snoc, e1]
          simp [partStep, f1]
        · have f1 := OMQ.add_unknown (d := d) e2 (k := key i (sensor d)) (fun hc => hr hc.1)
          refine ⟨q, out, ?_, ?_, e3, ?_⟩
          · rw [part_snoc, e1]
            simp [partStep, f1]
          · rw [hreg]
            refine e2.congr ?_ (fun k _ => hfin k)
            rintro k ⟨hk, _⟩
            apply got_same
            intro d' hd'
            cases hd'
            intro hc
            refine hr ?_
            rw [hc]
            exact hk
          · intro hall
            apply e4
            rintro k ⟨hk, hj⟩
            rw [← hfin k]
            exact hall k ⟨reg_mono hk, hj⟩
      | finish i =>
        have hij : i = j := by simpa [About] using hab
        subst hij
        have hl : Live i pre := ho.last
        have hmem : ∀ ss, .add i ss ∈ pre ++ [.finish i] ↔ .add i ss ∈ pre := by simp
        obtain ⟨ss0, hss0⟩ := hl.added
        refine ⟨fun h => absurd (List.mem_append_left _ hss0) (h ss0), ?_⟩
        intro ss hss
        have hss' := (hmem ss).1 hss
        obtain ⟨q, out, e1, e2, e3, e4⟩ := p2 ss hss'
        obtain ⟨hnd, hne⟩ := ho.init.nodup hss'
        have hreg : Reg (pre ++ [.finish i]) = Reg pre := reg_same (by simp)
        obtain ⟨q', new, f1, f2, f3, _⟩ := OMQ.markAll_spec (ss.map (key i)) q (Fin' pre) out e2 (hnd.map (fun a b hab => (key_inj.1 hab).2)) (by
          intro k hk
          obtain ⟨s, hs', rfl⟩ := List.mem_map.1 hk
          exact ⟨⟨⟨ss, hss', hs'⟩, rfl⟩, fin_live.2 hl⟩)
        have i2 : OMQ.Inv traj time (fun k => Reg (pre ++ [.finish i]) k ∧ traj k = i) (Got sensor (pre ++ [.finish i])) (Fin' (pre ++ [.finish i])) q' (out ++ new) := by
          rw [hreg]
          refine f2.congr (fun k _ => got_same (by simp)) ?_
          rintro k ⟨hr, hkj⟩
          have hmem' : k ∈ ss.map (key i) := by
            obtain ⟨ss', hm, hin⟩ := hr
            rw [hkj] at hm
            rw [add_once ho.init hm hss'] at hin
            exact List.mem_map.2 ⟨_, hin, by rw [← hkj]; rfl⟩
          rw [fin_not_live.2]
          · simp [hmem']
          · rw [live_snoc]
            rintro (⟨_, h⟩ | ⟨_, h, _⟩)
            · cases h
            · exact h (by rw [hkj])
        have hq := f3 (by simpa using hne)
        refine ⟨q', out ++ new, ?_, i2, hq.waiting, fun hall => hq.empty i2 hall⟩
        rw [part_snoc, e1]
        simp [partStep, finishKeys_eq, f1]
      | flush =>
        have hmem : ∀ ss, .add j ss ∈ pre ++ [.flush] ↔ .add j ss ∈ pre := by simp
        refine ⟨?_, ?_⟩
        · intro h
          rw [part_snoc, p1 (fun ss hc => h ss ((hmem ss).2 hc))]
          simp [partStep]
        · intro ss hss
          obtain ⟨q, out, e1, e2, e3, e4⟩ := p2 ss ((hmem ss).1 hss)
          obtain ⟨q', new, f1, f2, f3⟩ := OMQ.flush_spec e2 e4
          refine ⟨q', out ++ new, ?_, ?_, Or.inl f3, fun _ => f3⟩
          · rw [part_snoc, e1]
            simp [partStep, f1]
          · rw [reg_same (by simp)]
            refine f2.congr (fun k _ => got_same (by simp)) ?_
            intro k _
            rw [fin_not_live, live_snoc]
            rintro (⟨_, h⟩ | ⟨_, _, h⟩)
            · cases h
            · exact h rfl

/-- The collator by trajectory after orderly calls. -/
theorem single_parts {order : List ℤ → List ℤ} (hord : ∀ l, (order l).Perm l) {calls : List (Call S D)} (ho : Orderly calls) (hs : Sorted time sensor calls) :
    ∃ (c : Single S D T) (out : _), (Single.init : Single S D T).run time sensor order calls = some (c, out) ∧
      ∀ j, ∃ p, partRun time sensor j ((none, []) : Part S D T) calls = some (p, delivered j out) := by
  obtain ⟨h1, h2⟩ := run_parts (time := time) (sensor := sensor) (T := T) hord calls wf_init
  cases hr : (Single.init : Single S D T).run time sensor order calls with
  | none =>
    exfalso
    obtain ⟨j, hj⟩ := h2 hr
    obtain ⟨p1, p2⟩ := part_good (T := T) ho hs j
    by_cases h : ∃ ss, .add j ss ∈ calls
    · obtain ⟨ss, hss⟩ := h
      obtain ⟨q, out, e, _⟩ := p2 ss hss
      rw [show (((Single.init : Single S D T).queues j, (Single.init : Single S D T).keys j) : Part S D T) = (none, []) from rfl, e] at hj
      cases hj
    · rw [show (((Single.init : Single S D T).queues j, (Single.init : Single S D T).keys j) : Part S D T) = (none, []) from rfl, p1 (fun ss hc => h ⟨ss, hc⟩)] at hj
      cases hj
  | some r => exact ⟨r.1, r.2, rfl, fun j => ⟨_, h1 r.1 r.2 hr j⟩⟩

theorem good_behind {a b : List (Call S D)} (ho : Orderly (a ++ b)) (hs : Sorted time sensor (a ++ b)) {c : Shared S D T} {out : List (Key S × D)} (g : Good time sensor a c out) {j : ℤ} {p : Part S D T} {o' : List (Key S × D)}
    (hp : partRun time sensor j ((none, []) : Part S D T) (a ++ b) = some (p, o')) : delivered j out <+: o' := by
  have hoa : Orderly a := by
    intro p y q hpq
    exact ho p y (q ++ b) (by rw [hpq]; simp)
  have hsa : Sorted time sensor a := by
    intro i ss' hm s' hs'
    have := hs i ss' (List.mem_append_left _ hm) s' hs'
    rw [received_append] at this
    exact (List.pairwise_append.1 this).1
  rw [partRun_append] at hp
  simp only [Option.bind_eq_some_iff, Option.map_eq_some_iff, Prod.mk.injEq] at hp
  obtain ⟨⟨pa, oa⟩, e1, ⟨pb, ob⟩, e2, rfl, rfl⟩ := hp
  refine List.IsPrefix.trans ?_ (List.prefix_append _ _)
  simp only
  obtain ⟨p1, p2⟩ := part_good (T := T) hoa hsa j
  by_cases h : ∃ ss, .add j ss ∈ a
  · obtain ⟨ss, hss⟩ := h
    obtain ⟨q, oq, f1, f2, f3, f4⟩ := p2 ss hss
    rw [f1] at e1
    cases e1
    exact OMQ.behind_inv (fun k => Iff.rfl) (fun _ _ => rfl) (fun _ _ => rfl) (fun x k hl => hl.1.ne) g.inv f2 g.empty f4 f3
  · have : delivered j out = [] := by
      unfold delivered
      rw [List.filter_eq_nil_iff]
      intro x hx hc
      obtain ⟨ss, hm, _⟩ := g.inv.outsReg x hx
      rw [of_decide_eq_true hc] at hm
      exact h ⟨ss, hm⟩
    rw [this]
    exact List.nil_prefix

/-! ### The theorems -/

/-- **No abort.** If no data of a trajectory is older than what had been delivered when the trajectory was added, the common collator does not abort and delivers in the order of time,
whenever trajectories are added. -/
theorem late_ok {calls : List (Call S D)} (ho : Orderly calls) (hs : Sorted time sensor calls) (hc : Current time sensor calls) :
    ∃ (c : Shared S D T) (out : _), (Shared.init : Shared S D T).run time sensor calls = some (c, out) ∧ out.Pairwise fun a b => time a.2 ≤ time b.2 := by
  rcases good_or_doom (T := T) ho hs with ⟨c, out, g, _⟩ | ⟨_, h⟩
  · exact ⟨c, out, g.run, g.inv.outsSorted.imp fun h => h.time_le⟩
  · exact absurd hc h

/-- **Exactly then.** Once all trajectories have ended, the common collator has aborted exactly if some data of a trajectory was older than what had been delivered when the trajectory
was added. -/
theorem late_aborts_iff {calls : List (Call S D)} (ho : Orderly calls) (hs : Sorted time sensor calls) (hend : ∀ j, ¬ Live j calls) :
    (Shared.init : Shared S D T).run time sensor calls = none ↔ ¬ Current time sensor calls := by
  rcases good_or_doom (T := T) ho hs with ⟨c, out, g, hc⟩ | ⟨hd, hc⟩
  · rw [g.run]
    simp [hc]
  · refine iff_of_true ?_ hc
    cases hr : (Shared.init : Shared S D T).run time sensor calls with
    | none => rfl
    | some r =>
      obtain ⟨_, ⟨e, he, _, hf⟩, ho', _⟩ := hd r.1 r.2 hr
      exact absurd (ho' e he hf) (hend _)

/-- Whatever is delivered was received for its sensor. -/
theorem delivered_received {calls : List (Call S D)} (ho : Orderly calls) (hs : Sorted time sensor calls) {c : Shared S D T} {out : List (Key S × D)}
    (hr : (Shared.init : Shared S D T).run time sensor calls = some (c, out)) : ∀ x ∈ out, x.2 ∈ received sensor (traj x.1) (sid x.1) calls := by
  have key : ∀ {a : List (Call S D)} {ca : Shared S D T} {out : List (Key S × D)}, Good time sensor a ca out → ∀ x ∈ out, x.2 ∈ received sensor (traj x.1) (sid x.1) a := by
    intro a ca out g x hx
    have hem : x.2 ∈ OMQ.emitted x.1 out := List.mem_map.2 ⟨x, List.mem_filter.2 ⟨hx, by simp⟩, rfl⟩
    have hreg := g.inv.outsReg x hx
    cases hst : ca.queue.start (traj x.1) with
    | none =>
      rw [(g.inv.noStart x.1 hreg hst).1] at hem
      cases hem
    | some st =>
      obtain ⟨rest, hrest⟩ := OMQ.emitted_mem_addedL g.inv hreg hst
      exact OMQ.kept_subset (time := time) st (Got sensor a x.1) _ (by rw [← hrest]; exact List.mem_append_left _ hem)
  rcases good_or_doom (T := T) ho hs with ⟨c', out', g, _⟩ | ⟨hd, _⟩
  · rw [g.run] at hr
    cases hr
    exact key g
  · obtain ⟨_, _, _, a, b, ca, rfl, g⟩ := hd c out hr
    intro x hx
    rw [received_append]
    exact List.mem_append_left _ (key g x hx)

/-- **Newer data.** It is enough that no data of a trajectory is older than the data that was received before the trajectory was added. -/
theorem newer_ok {calls : List (Call S D)} (ho : Orderly calls) (hs : Sorted time sensor calls)
    (h : ∀ pre j ss post, calls = pre ++ .add j ss :: post → ∀ i t, ∀ y ∈ received sensor i t pre, ∀ s ∈ ss, ∀ d ∈ received sensor j s post, time y ≤ time d) :
    ∃ (c : Shared S D T) (out : _), (Shared.init : Shared S D T).run time sensor calls = some (c, out) := by
  obtain ⟨c, out, h1, _⟩ := late_ok (T := T) ho hs (by
    intro a j ss b hab c out hr x hx s hsm d hd
    have hoa : Orderly a := by
      intro p y q hpq
      exact ho p y (q ++ .add j ss :: b) (by rw [hab, hpq]; simp)
    have hsa : Sorted time sensor a := by
      intro i ss' hm s' hs'
      have := hs i ss' (by rw [hab]; exact List.mem_append_left _ hm) s' hs'
      rw [hab, received_append] at this
      exact (List.pairwise_append.1 this).1
    exact h a j ss b hab _ _ x.2 (delivered_received hoa hsa hr x hx) s hsm d hd)
  exact ⟨c, out, h1⟩

/-- **The collator by trajectory** aborts in no orderly session, whenever trajectories are added and however old their data.  As long as the common collator has not aborted it has
delivered for each trajectory a part from the front of what the collator by trajectory has, and the same once all trajectories have ended. -/
theorem late_same {order : List ℤ → List ℤ} (hord : ∀ l, (order l).Perm l) {calls : List (Call S D)} (ho : Orderly calls) (hs : Sorted time sensor calls) :
    ∃ (c' : Single S D T) (out' : _), (Single.init : Single S D T).run time sensor order calls = some (c', out') ∧
      ∀ (c : Shared S D T) (out : _), (Shared.init : Shared S D T).run time sensor calls = some (c, out) →
        (∀ j, delivered j out <+: delivered j out') ∧ ((∀ j, ¬ Live j calls) → ∀ j, delivered j out = delivered j out') := by
  obtain ⟨c', out', h1, h2⟩ := single_parts (T := T) hord ho hs
  refine ⟨c', out', h1, ?_⟩
  intro c out hr
  refine ⟨?_, ?_⟩
  · intro j
    obtain ⟨p, hp⟩ := h2 j
    rcases good_or_doom (T := T) ho hs with ⟨c1, out1, g, _⟩ | ⟨hd, _⟩
    · rw [g.run] at hr
      cases hr
      exact good_behind (b := []) (by simpa using ho) (by simpa using hs) g (by simpa using hp)
    · obtain ⟨_, _, _, a, b, ca, rfl, g⟩ := hd c out hr
      exact good_behind ho hs g hp
  · intro hend j
    obtain ⟨p, hp⟩ := h2 j
    rcases good_or_doom (T := T) ho hs with ⟨c1, out1, g, _⟩ | ⟨_, hc⟩
    · rw [g.run] at hr
      cases hr
      have hq : c.queue.queues = [] := g.empty (fun k _ => fin_not_live.2 (hend _))
      obtain ⟨p1, p2⟩ := part_good (T := T) ho hs j
      by_cases h : ∃ ss, .add j ss ∈ calls
      · obtain ⟨ss, hss⟩ := h
        obtain ⟨q, oq, f1, f2, f3, f4⟩ := p2 ss hss
        rw [f1] at hp
        have hq' : q.queues = [] := f4 (fun k _ => fin_not_live.2 (hend _))
        have := OMQ.restrict_inv (fun k => Iff.rfl) (fun _ _ => rfl) g.inv f2 hq hq'
        simp only [Option.some.injEq, Prod.mk.injEq] at hp
        rw [← hp.2]
        exact this
      · rw [p1 (fun ss hc => h ⟨ss, hc⟩)] at hp
        simp only [Option.some.injEq, Prod.mk.injEq] at hp
        rw [← hp.2]
        unfold delivered
        rw [List.filter_eq_nil_iff]
        intro x hx hc
        obtain ⟨ss, hm, _⟩ := g.inv.outsReg x hx
        rw [of_decide_eq_true hc] at hm
        exact h ⟨ss, hm⟩
    · rw [(late_aborts_iff (T := T) ho hs hend).2 hc] at hr
      cases hr

/-! ### Examples -/

theorem Orderly.snoc {pre : List (Call S D)} {o : Call S D} (h : Orderly pre) (h' : Allowed pre o) : Orderly (pre ++ [o]) := by
  intro a x b hab
  rcases snoc_split hab with ⟨rfl, rfl, rfl⟩ | ⟨b', rfl, h3⟩
  · exact h'
  · exact h a x b' h3

/-- Trajectory 1 is added when data of trajectory 0 up to time 5 was delivered; its own data has the time `t`. -/
def exLate (t : Nat) : List (Call Nat (Nat × Nat)) := [.add 0 [0], .data 0 (5, 0), .add 1 [0], .data 1 (t, 0), .data 0 (8, 0), .finish 0, .flush]

theorem exLate_orderly (t : Nat) : Orderly (exLate t) := by
  have h0 : Orderly ([] : List (Call Nat (Nat × Nat))) := by intro a x b h; simp at h
  have e : ∀ j ss, Live (S := Nat) (D := Nat × Nat) j [.add j ss] := fun j ss => ⟨[], ss, [], rfl, by simp, by simp⟩
  have h1 := h0.snoc (o := .add 0 [0]) (by simp [Allowed])
  have h2 := h1.snoc (o := .data 0 (5, 0)) (e 0 [0])
  have h3 := h2.snoc (o := .add 1 [0]) (by simp [Allowed])
  have h4 := h3.snoc (o := .data 1 (t, 0)) ⟨[.add 0 [0], .data 0 (5, 0)], [0], [], rfl, by simp, by simp⟩
  have h5 := h4.snoc (o := .data 0 (8, 0)) ⟨[], [0], [.data 0 (5, 0), .add 1 [0], .data 1 (t, 0)], rfl, by simp, by simp⟩
  have h6 := h5.snoc (o := .finish 0) ⟨[], [0], [.data 0 (5, 0), .add 1 [0], .data 1 (t, 0), .data 0 (8, 0)], rfl, by simp, by simp⟩
  exact h6.snoc (o := .flush) trivial

theorem exLate_sorted (t : Nat) : Sorted exTime exSensor (exLate t) := by
  intro j ss hm s hs
  simp only [exLate, List.mem_cons, Call.add.injEq, reduceCtorEq, List.not_mem_nil, false_or, or_false] at hm
  rcases hm with ⟨rfl, rfl⟩ | ⟨rfl, rfl⟩
  · obtain rfl := List.mem_singleton.1 hs
    simp [exLate, received, exTime, exSensor]
  · obtain rfl := List.mem_singleton.1 hs
    simp [exLate, received, exTime, exSensor]

theorem exLate_ended (t : Nat) (j : ℤ) : ¬ Live j (exLate t) := by
  rw [show exLate t = [.add 0 [0], .data 0 (5, 0), .add 1 [0], .data 1 (t, 0), .data 0 (8, 0), .finish 0] ++ [.flush] from rfl, live_snoc]
  simp

/-- With data from time 5 on the session ends well and both collators deliver the same; with older data the common collator aborts. -/
example : ((Shared.init : Shared Nat (Nat × Nat) Nat).run exTime exSensor (exLate 6)).map (fun r => r.2.map Prod.snd) = some [(5, 0), (6, 0), (8, 0)] ∧
    ((Single.init : Single Nat (Nat × Nat) Nat).run exTime exSensor id (exLate 6)).map (fun r => r.2.map Prod.snd) = some [(5, 0), (6, 0), (8, 0)] ∧
    (Shared.init : Shared Nat (Nat × Nat) Nat).run exTime exSensor (exLate 4) = none ∧
    ((Single.init : Single Nat (Nat × Nat) Nat).run exTime exSensor id (exLate 4)).map (fun r => r.2.map Prod.snd) = some [(5, 0), (4, 0), (8, 0)] := by decide +kernel

/-- The abort comes only when the older data could be delivered, not when it is added. -/
example : ((Shared.init : Shared Nat (Nat × Nat) Nat).run exTime exSensor [.add 0 [0], .data 0 (5, 0), .add 1 [0], .data 1 (4, 0)]).map (fun r => r.2.map Prod.snd) = some [(5, 0)] ∧
    (Shared.init : Shared Nat (Nat × Nat) Nat).run exTime exSensor [.add 0 [0], .data 0 (5, 0), .add 1 [0], .data 1 (4, 0), .data 0 (8, 0)] = none := by decide +kernel

/-- By the theorem: the session with the data from time 4 is not current. -/
example : ¬ Current exTime exSensor (exLate 4) :=
  (late_aborts_iff (exLate_orderly 4) (exLate_sorted 4) (exLate_ended 4)).1 (by decide +kernel)

/-- And the one with the data from time 6 is. -/
example : Current exTime exSensor (exLate 6) := by
  by_contra h
  have := (late_aborts_iff (exLate_orderly 6) (exLate_sorted 6) (exLate_ended 6)).2 h
  revert this
  decide +kernel

end Verif.LateTrajectories
