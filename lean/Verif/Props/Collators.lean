import Verif.CollatorsLemmas
import Mathlib.Data.List.Nodup

/-!
# The two collators (C88)
-/

namespace Verif.Collators

set_option linter.unusedSectionVars false

variable {S D T : Type} [LinearOrder S] [LinearOrder T] [OrderBot T]
variable {time : D → T} {sensor : D → S}

/-! ### Notions of the specification -/

/-- The call is about trajectory `j`; a flush is about each. -/
def About (j : ℤ) : Call S D → Bool
  | .add i _ => i = j
  | .data i _ => i = j
  | .finish i => i = j
  | .flush => true

/-- What is called for one trajectory. -/
def only (j : ℤ) (calls : List (Call S D)) : List (Call S D) := calls.filter (About j)

/-- What is delivered for one trajectory. -/
def delivered (j : ℤ) (out : List (Key S × D)) : List (Key S × D) := out.filter fun o => traj o.1 = j

/-- The data added for a sensor of a trajectory. -/
def received (sensor : D → S) (j : ℤ) (s : S) : List (Call S D) → List D
  | [] => []
  | .data i d :: r => if i = j ∧ sensor d = s then d :: received sensor j s r else received sensor j s r
  | _ :: r => received sensor j s r

/-- The calls after all trajectories were added: data and the end only for trajectories that have not ended. -/
def Proper (active : ℤ → Prop) : List (Call S D) → Prop
  | [] => True
  | .add _ _ :: _ => False
  | .data j _ :: r => active j ∧ Proper active r
  | .finish j :: r => active j ∧ Proper (fun i => active i ∧ i ≠ j) r
  | .flush :: r => Proper (fun _ => False) r

/-- The trajectory was finished. -/
def Ended (j : ℤ) : List (Call S D) → Prop
  | [] => False
  | .finish i :: r => i = j ∨ Ended j r
  | .flush :: _ => True
  | _ :: r => Ended j r

/-- A map with several trajectories that are all known from the start. -/
structure Setup (js : List ℤ) (sens : ℤ → List S) : Prop where
  distinct : js.Nodup
  sensors : ∀ j ∈ js, (sens j).Nodup ∧ sens j ≠ []

/-- The calls for a map. -/
def session (js : List ℤ) (sens : ℤ → List S) (rest : List (Call S D)) : List (Call S D) := js.map (fun j => .add j (sens j)) ++ rest

/-- The data of each sensor comes in the order of time. -/
def InOrder (time : D → T) (sensor : D → S) (js : List ℤ) (sens : ℤ → List S) (rest : List (Call S D)) : Prop :=
  ∀ j ∈ js, ∀ s ∈ sens j, (received sensor j s rest).Pairwise fun a b => time a ≤ time b

/-! ### The collator by trajectory runs them apart -/

/-- The part of one trajectory: its queue and its keys. -/
abbrev Part (S D T : Type) := Option (Queues S D T) × List (Key S)

/-- What a call does to the part of a trajectory. -/
def partStep (time : D → T) (sensor : D → S) (j : ℤ) (p : Part S D T) : Call S D → Option (Part S D T × List (Key S × D))
  | .add i sensors =>
    if i ≠ j then some (p, [])
    else if p.1 ≠ none then none
    else if sensors = [] then some (p, [])
    else (OMQ.addQueues OMQ.init (sensors.map (key j))).map fun q => ((some q, p.2 ++ sensors.map (key j)), [])
  | .data i d => if i ≠ j then some (p, []) else p.1.bind fun q => (OMQ.add traj time q (key j (sensor d)) d).map fun r => ((some r.1, p.2), r.2)
  | .finish i => if i ≠ j then some (p, []) else (finishKeys time p.1 p.2).map fun r => ((r.1, p.2), r.2)
  | .flush => match p.1 with
    | none => some (p, [])
    | some q => (OMQ.flush traj time q).map fun r => ((some r.1, p.2), r.2)

def partRun (time : D → T) (sensor : D → S) (j : ℤ) (p : Part S D T) : List (Call S D) → Option (Part S D T × List (Key S × D))
  | [] => some (p, [])
  | o :: os => (partStep time sensor j p o).bind fun r => (partRun time sensor j r.1 os).map fun r' => (r'.1, r.2 ++ r'.2)

/-- Well-formed states. -/
structure Wf (c : Single S D T) : Prop where
  ids : ∀ j, j ∈ c.ids ↔ c.queues j ≠ none
  nodup : c.ids.Nodup
  keys : ∀ j, ∀ q ∈ c.queues j, OMQ.KeysIn (fun k => traj k = j) q

theorem wf_init : Wf (Single.init : Single S D T) := ⟨by simp [Single.init], by simp [Single.init], by simp [Single.init]⟩

theorem delivered_same {j : ℤ} {out : List (Key S × D)} (h : ∀ o ∈ out, traj o.1 = j) : delivered j out = out := by
  unfold delivered
  rw [List.filter_eq_self]
  intro o ho
  simpa using h o ho

theorem delivered_other {i j : ℤ} (hij : i ≠ j) {out : List (Key S × D)} (h : ∀ o ∈ out, traj o.1 = i) : delivered j out = [] := by
  unfold delivered
  rw [List.filter_eq_nil_iff]
  intro o ho
  rw [h o ho]
  simpa using hij

theorem delivered_append (j : ℤ) (a b : List (Key S × D)) : delivered j (a ++ b) = delivered j a ++ delivered j b := by
  unfold delivered
  rw [List.filter_append]

theorem finishKeys_keys {P : Key S → Prop} : ∀ (ks : List (Key S)) {q r : Option (Queues S D T)} {out : List (Key S × D)}, (∀ x ∈ q, OMQ.KeysIn P x) →
    finishKeys time q ks = some (r, out) → (∀ x ∈ r, OMQ.KeysIn P x) ∧ (∀ o ∈ out, P o.1) ∧ (r = none ↔ q = none) := by
  intro ks
  induction ks with
  | nil => intro q r out hq h; cases h; exact ⟨hq, by simp, Iff.rfl⟩
  | cons k ks ih =>
    intro q r out hq h
    simp only [finishKeys, Option.bind_eq_bind, Option.bind_eq_some_iff, Option.some.injEq, Prod.mk.injEq] at h
    obtain ⟨x, rfl, y, h1, z, h2, rfl, rfl⟩ := h
    obtain ⟨a, b⟩ := OMQ.markFinished_keys (hq x rfl) h1
    obtain ⟨c, d, e⟩ := ih (by rintro w hw; cases hw; exact a) h2
    refine ⟨c, ?_, ?_⟩
    · intro o ho
      rcases List.mem_append.1 ho with ho | ho
      · exact b o ho
      · exact d o ho
    · rw [e]
      simp

theorem flushAll_ok : ∀ (js : List ℤ) (queues : ℤ → Option (Queues S D T)), js.Nodup → (∀ j ∈ js, queues j ≠ none) → (∀ j, ∀ q ∈ queues j, OMQ.KeysIn (fun k => traj k = j) q) →
    (∀ r out, flushAll time queues js = some (r, out) → (∀ j ∈ js, ∃ q t, queues j = some q ∧ OMQ.flush traj time q = some t ∧ r j = some t.1 ∧ delivered j out = t.2) ∧
      (∀ j, j ∉ js → r j = queues j ∧ delivered j out = []) ∧ (∀ j, ∀ q ∈ r j, OMQ.KeysIn (fun k => traj k = j) q)) ∧
    (flushAll time queues js = none → ∃ j ∈ js, ∃ q, queues j = some q ∧ OMQ.flush traj time q = none) := by
  intro js
  induction js with
  | nil =>
    intro queues _ _ hk
    refine ⟨?_, by simp [flushAll]⟩
    intro r out h
    cases h
    exact ⟨by simp, fun j _ => ⟨rfl, rfl⟩, hk⟩
  | cons j js ih =>
    intro queues hn hq hk
    rw [List.nodup_cons] at hn
    obtain ⟨q, hqj⟩ := Option.ne_none_iff_exists'.1 (hq j List.mem_cons_self)
    cases hf : OMQ.flush traj time q with
    | none =>
      refine ⟨?_, fun _ => ⟨j, List.mem_cons_self, q, hqj, hf⟩⟩
      intro r out h
      simp only [flushAll, hqj, Option.bind_eq_bind, Option.bind_some, hf, Option.bind_none] at h
      cases h
    | some t =>
      obtain ⟨t1, t2⟩ := OMQ.markAll_keys (P := fun k => traj k = j) _ (hk j q hqj) hf
      obtain ⟨h1, h2⟩ := ih (fun i => if i = j then some t.1 else queues i) hn.2
        (by
          intro i hi
          have : i ≠ j := by rintro rfl; exact hn.1 hi
          simp only [this, if_false]
          exact hq i (List.mem_cons_of_mem _ hi))
        (by
          intro i x hx
          by_cases hij : i = j
          · subst hij
            simp only [if_true, Option.mem_def, Option.some.injEq] at hx
            rw [← hx]
            exact t1
          · simp only [hij, if_false] at hx
            exact hk i x hx)
      have he : flushAll time queues (j :: js) = (flushAll time (fun i => if i = j then some t.1 else queues i) js).bind fun r' => some (r'.1, t.2 ++ r'.2) := by
        simp only [flushAll, hqj, Option.bind_eq_bind, Option.bind_some, hf]
      rw [he]
      constructor
      · intro r out h
        obtain ⟨r', e1, e2⟩ := Option.bind_eq_some_iff.1 h
        cases e2
        obtain ⟨a, b, c⟩ := h1 _ _ e1
        refine ⟨?_, ?_, c⟩
        · intro i hi
          rcases List.mem_cons.1 hi with rfl | _
          · obtain ⟨b1, b2⟩ := b i hn.1
            refine ⟨q, t, hqj, hf, by rw [b1, if_pos rfl], ?_⟩
            rw [delivered_append, b2, List.append_nil, delivered_same t2]
          · rename_i hmem
            have hne : i ≠ j := fun h => hn.1 (h ▸ hmem)
            obtain ⟨q', t', a1, a2, a3, a4⟩ := a i hmem
            rw [if_neg hne] at a1
            refine ⟨q', t', a1, a2, a3, ?_⟩
            rw [delivered_append, a4, delivered_other (fun h => hne h.symm) t2, List.nil_append]
        · intro i hi
          have hne : i ≠ j := by rintro rfl; exact hi List.mem_cons_self
          obtain ⟨b1, b2⟩ := b i (fun h => hi (List.mem_cons_of_mem _ h))
          rw [if_neg hne] at b1
          refine ⟨b1, ?_⟩
          rw [delivered_append, b2, delivered_other (fun h => hne h.symm) t2, List.nil_append]
      · intro h
        rw [Option.bind_eq_none_iff] at h
        have hnone : flushAll time (fun i => if i = j then some t.1 else queues i) js = none := by
          cases hc : flushAll time (fun i => if i = j then some t.1 else queues i) js with
          | none => rfl
          | some r' => exact absurd (h r' hc) (by simp)
        obtain ⟨i, hi, q', a1, a2⟩ := h2 hnone
        have hne : i ≠ j := by rintro rfl; exact hn.1 hi
        rw [if_neg hne] at a1
        exact ⟨i, List.mem_cons_of_mem _ hi, q', a1, a2⟩

theorem step_parts {order : List ℤ → List ℤ} (ho : ∀ l, (order l).Perm l) {c : Single S D T} (hc : Wf c) (o : Call S D) :
    (∀ c' out, c.step time sensor order o = some (c', out) → Wf c' ∧ ∀ j, partStep time sensor j (c.queues j, c.keys j) o = some ((c'.queues j, c'.keys j), delivered j out)) ∧
    (c.step time sensor order o = none → ∃ j, partStep time sensor j (c.queues j, c.keys j) o = none) := by
  cases o with
  | add i sensors =>
    unfold Single.step
    dsimp only
    by_cases hq : c.queues i = none
    · rw [if_neg (by simpa using hq)]
      by_cases hs : sensors = []
      · rw [if_pos hs]
        refine ⟨?_, by simp⟩
        intro c' out h
        cases h
        refine ⟨hc, fun j => ?_⟩
        unfold partStep
        by_cases hij : i = j
        · subst hij
          simp [hq, hs, delivered]
        · simp [hij, delivered]
      · rw [if_neg hs]
        simp only [Option.bind_eq_bind]
        cases ha : OMQ.addQueues (OMQ.init : Queues S D T) (sensors.map (key i)) with
        | none =>
          refine ⟨by simp, fun _ => ⟨i, ?_⟩⟩
          simp [partStep, hq, hs, ha]
        | some q =>
          refine ⟨?_, by simp⟩
          intro c' out h
          simp only [Option.bind_some, Option.some.injEq, Prod.mk.injEq] at h
          obtain ⟨rfl, rfl⟩ := h
          constructor
          · refine ⟨?_, ?_, ?_⟩
            · intro j
              simp only [List.mem_append, List.mem_singleton, hc.ids]
              by_cases hij : j = i
              · simp [hij]
              · simp [hij]
            · rw [List.nodup_append]
              refine ⟨hc.nodup, by simp, ?_⟩
              intro a hmem b hb
              rw [List.mem_singleton.1 hb]
              rintro rfl
              exact (hc.ids a).1 hmem hq
            · intro j x hx
              by_cases hij : j = i
              · subst hij
                simp only [if_true, Option.mem_def, Option.some.injEq] at hx
                rw [← hx]
                refine OMQ.addQueues_keys _ (by intro e he; simp [OMQ.init] at he) ?_ ha
                intro k hk
                obtain ⟨s, _, rfl⟩ := List.mem_map.1 hk
                rfl
              · simp only [hij, if_false] at hx
                exact hc.keys j x hx
          · intro j
            unfold partStep
            by_cases hij : j = i
            · subst hij
              simp [hq, hs, ha, delivered]
            · have : i ≠ j := fun h => hij h.symm
              simp [hij, this, delivered]
    · rw [if_pos hq]
      refine ⟨by simp, fun _ => ⟨i, ?_⟩⟩
      simp [partStep, hq]
  | data i d =>
    unfold Single.step
    simp only [Option.bind_eq_bind]
    cases hq : c.queues i with
    | none =>
      refine ⟨by simp, fun _ => ⟨i, ?_⟩⟩
      simp [partStep, hq]
    | some q =>
      simp only [Option.bind_some]
      cases ha : OMQ.add traj time q (key i (sensor d)) d with
      | none =>
        refine ⟨by simp, fun _ => ⟨i, ?_⟩⟩
        simp [partStep, hq, ha]
      | some r =>
        refine ⟨?_, by simp⟩
        intro c' out h
        simp only [Option.bind_some, Option.some.injEq, Prod.mk.injEq] at h
        obtain ⟨rfl, rfl⟩ := h
        obtain ⟨k1, k2⟩ := OMQ.add_keys (P := fun k => traj k = i) (hc.keys i q hq) ha
        constructor
        · refine ⟨?_, hc.nodup, ?_⟩
          · intro j
            simp only [hc.ids]
            by_cases hij : j = i
            · simp [hij, hq]
            · simp [hij]
          · intro j x hx
            by_cases hij : j = i
            · subst hij
              simp only [if_true, Option.mem_def, Option.some.injEq] at hx
              rw [← hx]
              exact k1
            · simp only [hij, if_false] at hx
              exact hc.keys j x hx
        · intro j
          unfold partStep
          by_cases hij : j = i
          · subst hij
            simp [hq, ha, delivered_same k2]
          · have : i ≠ j := fun h => hij h.symm
            simp [hij, this, delivered_other this k2]
  | finish i =>
    unfold Single.step
    simp only [Option.bind_eq_bind]
    cases ha : finishKeys time (c.queues i) (c.keys i) with
    | none =>
      refine ⟨by simp, fun _ => ⟨i, ?_⟩⟩
      simp [partStep, ha]
    | some r =>
      refine ⟨?_, by simp⟩
      intro c' out h
      simp only [Option.bind_some, Option.some.injEq, Prod.mk.injEq] at h
      obtain ⟨rfl, rfl⟩ := h
      obtain ⟨k1, k2, k3⟩ := finishKeys_keys (P := fun k => traj k = i) _ (hc.keys i) ha
      constructor
      · refine ⟨?_, hc.nodup, ?_⟩
        · intro j
          simp only [hc.ids]
          by_cases hij : j = i
          · subst hij
            simp [k3]
          · simp [hij]
        · intro j x hx
          by_cases hij : j = i
          · subst hij
            simp only [if_true] at hx
            exact k1 x hx
          · simp only [hij, if_false] at hx
            exact hc.keys j x hx
      · intro j
        unfold partStep
        by_cases hij : j = i
        · subst hij
          simp [ha, delivered_same k2]
        · have : i ≠ j := fun h => hij h.symm
          simp [hij, this, delivered_other this k2]
  | flush =>
    unfold Single.step
    simp only [Option.bind_eq_bind]
    have hperm := ho c.ids
    obtain ⟨h1, h2⟩ := flushAll_ok (time := time) (order c.ids) c.queues (hperm.nodup_iff.2 hc.nodup) (fun j hj => (hc.ids j).1 (hperm.mem_iff.1 hj)) hc.keys
    cases ha : flushAll time c.queues (order c.ids) with
    | none =>
      refine ⟨by simp, fun _ => ?_⟩
      obtain ⟨j, _, q, e1, e2⟩ := h2 ha
      exact ⟨j, by simp [partStep, e1, e2]⟩
    | some r =>
      refine ⟨?_, by simp⟩
      intro c' out h
      simp only [Option.bind_some, Option.some.injEq, Prod.mk.injEq] at h
      obtain ⟨rfl, rfl⟩ := h
      obtain ⟨a, b, d⟩ := h1 r.1 r.2 ha
      constructor
      · refine ⟨?_, hc.nodup, d⟩
        intro j
        by_cases hj : j ∈ c.ids
        · obtain ⟨q, t, _, _, e3, _⟩ := a j (hperm.mem_iff.2 hj)
          simp [hj, e3]
        · have := (b j (fun h => hj (hperm.mem_iff.1 h))).1
          simp only [this]
          exact hc.ids j
      · intro j
        unfold partStep
        by_cases hj : j ∈ c.ids
        · obtain ⟨q, t, e1, e2, e3, e4⟩ := a j (hperm.mem_iff.2 hj)
          simp [e1, e2, e3, e4]
        · obtain ⟨b1, b2⟩ := b j (fun h => hj (hperm.mem_iff.1 h))
          have hnone : c.queues j = none := by
            by_contra hne
            exact hj ((hc.ids j).2 hne)
          simp [hnone, b1, b2]

theorem run_parts {order : List ℤ → List ℤ} (ho : ∀ l, (order l).Perm l) : ∀ (os : List (Call S D)) {c : Single S D T}, Wf c →
    (∀ c' out, c.run time sensor order os = some (c', out) → ∀ j, partRun time sensor j (c.queues j, c.keys j) os = some ((c'.queues j, c'.keys j), delivered j out)) ∧
    (c.run time sensor order os = none → ∃ j, partRun time sensor j (c.queues j, c.keys j) os = none) := by
  intro os
  induction os with
  | nil =>
    intro c _
    refine ⟨?_, by simp [Single.run]⟩
    intro c' out h j
    cases h
    rfl
  | cons o os ih =>
    intro c hc
    obtain ⟨h1, h2⟩ := step_parts (time := time) (sensor := sensor) ho hc o
    simp only [Single.run, Option.bind_eq_bind]
    cases hs : c.step time sensor order o with
    | none =>
      refine ⟨by simp, fun _ => ?_⟩
      obtain ⟨j, hj⟩ := h2 hs
      exact ⟨j, by simp [partRun, hj]⟩
    | some r =>
      obtain ⟨w, hp⟩ := h1 r.1 r.2 hs
      obtain ⟨i1, i2⟩ := ih w
      simp only [Option.bind_some]
      cases hr : r.1.run time sensor order os with
      | none =>
        refine ⟨by simp, fun _ => ?_⟩
        obtain ⟨j, hj⟩ := i2 hr
        exact ⟨j, by simp [partRun, hp j, hj]⟩
      | some r' =>
        refine ⟨?_, by simp⟩
        intro c' out h j
        simp only [Option.bind_some, Option.some.injEq, Prod.mk.injEq] at h
        obtain ⟨rfl, rfl⟩ := h
        simp [partRun, hp j, i1 r'.1 r'.2 hr j, delivered_append]

theorem partStep_other {j : ℤ} {p : Part S D T} {o : Call S D} (h : About j o = false) : partStep time sensor j p o = some (p, []) := by
  cases o with
  | add i sensors => simp only [About, decide_eq_false_iff_not] at h; simp [partStep, h]
  | data i d => simp only [About, decide_eq_false_iff_not] at h; simp [partStep, h]
  | finish i => simp only [About, decide_eq_false_iff_not] at h; simp [partStep, h]
  | flush => simp [About] at h

theorem partRun_only (j : ℤ) : ∀ (os : List (Call S D)) (p : Part S D T), partRun time sensor j p (only j os) = partRun time sensor j p os := by
  intro os
  induction os with
  | nil => intro p; rfl
  | cons o os ih =>
    intro p
    cases h : About j o with
    | true =>
      have : only j (o :: os) = o :: only j os := by simp [only, h]
      rw [this]
      simp only [partRun]
      congr 1
      funext r
      rw [ih]
    | false =>
      have : only j (o :: os) = only j os := by simp [only, h]
      rw [this, ih]
      simp only [partRun, partStep_other h, Option.bind_some, List.nil_append]
      cases partRun time sensor j p os <;> simp

theorem partRun_only_other {i j : ℤ} (hij : i ≠ j) : ∀ (os : List (Call S D)), partRun time sensor i ((none, []) : Part S D T) (only j os) = some ((none, []), []) := by
  intro os
  induction os with
  | nil => rfl
  | cons o os ih =>
    cases h : About j o with
    | false =>
      have : only j (o :: os) = only j os := by simp [only, h]
      rw [this, ih]
    | true =>
      have : only j (o :: os) = o :: only j os := by simp [only, h]
      rw [this]
      have hs : partStep time sensor i ((none, []) : Part S D T) o = some ((none, []), []) := by
        cases o with
        | add k sensors => simp only [About, decide_eq_true_eq] at h; subst h; have hk : k ≠ i := fun h => hij h.symm; simp [partStep, hk]
        | data k d => simp only [About, decide_eq_true_eq] at h; subst h; have hk : k ≠ i := fun h => hij h.symm; simp [partStep, hk]
        | finish k => simp only [About, decide_eq_true_eq] at h; subst h; have hk : k ≠ i := fun h => hij h.symm; simp [partStep, hk]
        | flush => simp [partStep]
      simp [partRun, hs, ih]

/-- **The collator by trajectory handles each trajectory as if it were alone**: what is delivered for it depends only on the calls for it, in whatever order the calls for others
come, and the whole aborts exactly if the calls for some trajectory do. -/
theorem trajectories_apart {order : List ℤ → List ℤ} (ho : ∀ l, (order l).Perm l) (calls : List (Call S D)) :
    (∀ c out, (Single.init : Single S D T).run time sensor order calls = some (c, out) →
      ∀ j, ∃ c', (Single.init : Single S D T).run time sensor order (only j calls) = some (c', delivered j out)) ∧
    ((Single.init : Single S D T).run time sensor order calls = none ↔ ∃ j, (Single.init : Single S D T).run time sensor order (only j calls) = none) := by
  obtain ⟨h1, h2⟩ := run_parts (time := time) (sensor := sensor) ho calls wf_init
  have hfwd : ∀ c out, (Single.init : Single S D T).run time sensor order calls = some (c, out) → ∀ j, ∃ c', (Single.init : Single S D T).run time sensor order (only j calls) = some (c', delivered j out) := by
    intro c out h j
    have hj := h1 c out h j
    obtain ⟨g1, g2⟩ := run_parts (time := time) (sensor := sensor) ho (only j calls) wf_init
    cases hr : (Single.init : Single S D T).run time sensor order (only j calls) with
    | none =>
      obtain ⟨i, hi⟩ := g2 hr
      by_cases hij : i = j
      · subst hij
        rw [partRun_only, hj] at hi
        cases hi
      · have := partRun_only_other (time := time) (sensor := sensor) (T := T) hij calls
        rw [show (((Single.init : Single S D T).queues i, (Single.init : Single S D T).keys i) : Part S D T) = (none, []) from rfl, this] at hi
        cases hi
    | some r =>
      have hg := g1 r.1 r.2 hr
      have e1 := hg j
      rw [partRun_only, hj] at e1
      simp only [Option.some.injEq, Prod.mk.injEq] at e1
      have hall : ∀ o ∈ r.2, traj o.1 = j := by
        intro o hor
        by_contra hne
        have e2 := hg (traj o.1)
        rw [show (((Single.init : Single S D T).queues (traj o.1), (Single.init : Single S D T).keys (traj o.1)) : Part S D T) = (none, []) from rfl,
          partRun_only_other (fun h => hne h)] at e2
        simp only [Option.some.injEq, Prod.mk.injEq] at e2
        have : o ∈ delivered (traj o.1) r.2 := by
          unfold delivered
          rw [List.mem_filter]
          exact ⟨hor, by simp⟩
        rw [← e2.2] at this
        simp at this
      refine ⟨r.1, ?_⟩
      rw [e1.2, delivered_same hall]
  refine ⟨hfwd, ?_⟩
  · constructor
    · intro h
      obtain ⟨j, hj⟩ := h2 h
      refine ⟨j, ?_⟩
      obtain ⟨g1, g2⟩ := run_parts (time := time) (sensor := sensor) ho (only j calls) wf_init
      cases hr : (Single.init : Single S D T).run time sensor order (only j calls) with
      | none => rfl
      | some r =>
        have := g1 r.1 r.2 hr j
        rw [partRun_only, hj] at this
        cases this
    · rintro ⟨j, hj⟩
      cases hr : (Single.init : Single S D T).run time sensor order calls with
      | none => rfl
      | some r =>
        obtain ⟨c', hc'⟩ := hfwd r.1 r.2 hr j
        rw [hc'] at hj
        cases hj

/-! ### Sessions -/

/-- The calls of the ordered multi queue. -/
def ops (sensor : D → S) (sens : ℤ → List S) : Call S D → List (OMQ.Op (Key S) D)
  | .add _ _ => []
  | .data j d => [.add (key j (sensor d)) d]
  | .finish j => (sens j).map fun s => .finish (key j s)
  | .flush => [.flush]

/-- All keys. -/
def allKeys (js : List ℤ) (sens : ℤ → List S) : List (Key S) := js.flatMap fun j => (sens j).map (key j)

theorem key_inj {i j : ℤ} {s t : S} : key i s = key j t ↔ i = j ∧ s = t := by
  unfold key
  rw [toLex_inj, Prod.mk.injEq]

theorem mem_allKeys {js : List ℤ} {sens : ℤ → List S} {j : ℤ} {s : S} : key j s ∈ allKeys js sens ↔ j ∈ js ∧ s ∈ sens j := by
  simp only [allKeys, List.mem_flatMap, List.mem_map]
  constructor
  · rintro ⟨i, hi, t, ht, h⟩
    obtain ⟨rfl, rfl⟩ := key_inj.1 h
    exact ⟨hi, ht⟩
  · rintro ⟨h1, h2⟩
    exact ⟨j, h1, s, h2, rfl⟩

theorem exists_key (k : Key S) : ∃ j s, k = key j s ∧ traj k = j := ⟨(ofLex k).1, (ofLex k).2, rfl, rfl⟩

theorem nodup_allKeys {js : List ℤ} {sens : ℤ → List S} (h : Setup js sens) : (allKeys js sens).Nodup := by
  unfold allKeys
  rw [List.nodup_flatMap]
  constructor
  · intro j hj
    exact (h.sensors j hj).1.map fun a b hab => (key_inj.1 hab).2
  · refine h.distinct.imp ?_
    intro a b hab
    simp only [Function.onFun]
    rw [List.disjoint_left]
    intro k hk hk'
    obtain ⟨s, _, rfl⟩ := List.mem_map.1 hk
    obtain ⟨t, _, h⟩ := List.mem_map.1 hk'
    exact hab (key_inj.1 h).1.symm

theorem valid_finishes {reg : Key S → Prop} : ∀ (l : List (Key S)) (opn : Key S → Prop) (r : List (OMQ.Op (Key S) D)), l.Nodup → (∀ k ∈ l, opn k) →
    OMQ.Valid reg (fun k => opn k ∧ k ∉ l) r → OMQ.Valid reg opn (l.map .finish ++ r) := by
  intro l
  induction l with
  | nil => intro opn r _ _ h; simpa using h
  | cons k l ih =>
    intro opn r hn ho h
    rw [List.nodup_cons] at hn
    refine ⟨ho k List.mem_cons_self, ih _ r hn.2 ?_ ?_⟩
    · intro k' hk'
      exact ⟨ho k' (List.mem_cons_of_mem _ hk'), by rintro rfl; exact hn.1 hk'⟩
    · refine h.congr _ ?_
      intro k'
      simp only [List.mem_cons, not_or]
      tauto

theorem valid_ops {js : List ℤ} {sens : ℤ → List S} (hs : Setup js sens) : ∀ (rest : List (Call S D)) (active : ℤ → Prop), (∀ j, active j → j ∈ js) → Proper active rest →
    OMQ.Valid (· ∈ allKeys js sens) (fun k => k ∈ allKeys js sens ∧ active (traj k)) (rest.flatMap (ops sensor sens)) := by
  intro rest
  induction rest with
  | nil => intro active _ _; trivial
  | cons o rest ih =>
    intro active ha hp
    cases o with
    | add j l => exact absurd hp (by simp [Proper])
    | data j d =>
      refine ⟨?_, ih active ha hp.2⟩
      by_cases hk : key j (sensor d) ∈ allKeys js sens
      · exact Or.inl ⟨hk, hp.1⟩
      · exact Or.inr hk
    | finish j =>
      have hj := ha j hp.1
      rw [List.flatMap_cons]
      have he : ops sensor sens (.finish j : Call S D) = ((sens j).map (key j)).map .finish := by simp [ops, Function.comp_def]
      rw [he]
      refine valid_finishes _ _ _ ((hs.sensors j hj).1.map fun a b hab => (key_inj.1 hab).2) ?_ ?_
      · intro k hk
        obtain ⟨s, h1, rfl⟩ := List.mem_map.1 hk
        exact ⟨mem_allKeys.2 ⟨hj, h1⟩, hp.1⟩
      · refine (ih (fun i => active i ∧ i ≠ j) (fun i hi => ha i hi.1) hp.2).congr _ ?_
        intro k
        obtain ⟨i, s, rfl, hi⟩ := exists_key k
        rw [hi]
        constructor
        · rintro ⟨h1, h2, h3⟩
          refine ⟨⟨h1, h2⟩, ?_⟩
          intro hk
          obtain ⟨t, _, h⟩ := List.mem_map.1 hk
          exact h3 (key_inj.1 h).1.symm
        · rintro ⟨⟨h1, h2⟩, h3⟩
          refine ⟨h1, h2, ?_⟩
          rintro rfl
          exact h3 (List.mem_map.2 ⟨s, (mem_allKeys.1 h1).2, rfl⟩)
    | flush =>
      refine (ih (fun _ => False) (by simp) hp).congr _ ?_
      simp

theorem input_ops (sens : ℤ → List S) (j : ℤ) (s : S) : ∀ rest : List (Call S D), OMQ.input (key j s) (rest.flatMap (ops sensor sens)) = received sensor j s rest := by
  intro rest
  induction rest with
  | nil => rfl
  | cons o rest ih =>
    rw [List.flatMap_cons, OMQ.input_append, ih]
    cases o with
    | add i l => rfl
    | data i d =>
      simp only [ops, OMQ.input, received, key_inj]
      by_cases h : i = j ∧ sensor d = s
      · rw [if_pos h, if_pos h]; rfl
      · rw [if_neg h, if_neg h]; rfl
    | finish i =>
      have : ∀ l : List S, OMQ.input (key j s) (l.map fun s => (.finish (key i s) : OMQ.Op (Key S) D)) = [] := by
        intro l
        induction l with
        | nil => rfl
        | cons a l ih => simpa [OMQ.input] using ih
      simp [ops, this, received]
    | flush => rfl

theorem closes_append (k : Key S) (a b : List (OMQ.Op (Key S) D)) : OMQ.Closes k (a ++ b) ↔ OMQ.Closes k a ∨ OMQ.Closes k b := by
  induction a with
  | nil => simp [OMQ.Closes]
  | cons o a ih => cases o <;> simp [OMQ.Closes, ih, or_assoc]

theorem closes_ops {sens : ℤ → List S} {j : ℤ} {s : S} (hs : s ∈ sens j) : ∀ rest : List (Call S D), OMQ.Closes (key j s) (rest.flatMap (ops sensor sens)) ↔ Ended j rest := by
  intro rest
  induction rest with
  | nil => simp [OMQ.Closes, Ended]
  | cons o rest ih =>
    rw [List.flatMap_cons, closes_append, ih]
    cases o with
    | add i l => simp [ops, OMQ.Closes, Ended]
    | data i d => simp [ops, OMQ.Closes, Ended]
    | finish i =>
      have : ∀ l : List S, OMQ.Closes (key j s) (l.map fun s => (.finish (key i s) : OMQ.Op (Key S) D)) ↔ i = j ∧ s ∈ l := by
        intro l
        induction l with
        | nil => simp [OMQ.Closes]
        | cons a l ih =>
          simp only [List.map_cons, OMQ.Closes, ih, key_inj, List.mem_cons]
          constructor
          · rintro (⟨h1, h2⟩ | ⟨h1, h2⟩)
            · exact ⟨h1, Or.inl h2.symm⟩
            · exact ⟨h1, Or.inr h2⟩
          · rintro ⟨h1, h2 | h2⟩
            · exact Or.inl ⟨h1, h2.symm⟩
            · exact Or.inr ⟨h1, h2⟩
      simp only [ops, this, Ended]
      constructor
      · rintro (h | h)
        · exact Or.inl h.1
        · exact Or.inr h
      · rintro (h | h)
        · exact Or.inl ⟨h, h ▸ hs⟩
        · exact Or.inr h
    | flush => simp [ops, OMQ.Closes, Ended]

theorem shared_rest {sens : ℤ → List S} : ∀ (rest : List (Call S D)) (active : ℤ → Prop) (c : Shared S D T), (∀ j, active j → c.keys j = (sens j).map (key j)) → Proper active rest →
    c.run time sensor rest = (OMQ.run traj time c.queue (rest.flatMap (ops sensor sens))).map fun r => (⟨r.1, c.keys⟩, r.2) := by
  intro rest
  induction rest with
  | nil => intro active c _ _; rfl
  | cons o rest ih =>
    intro active c hk hp
    have hstep : ∀ l, ops sensor sens o = l → c.step time sensor o = (OMQ.run traj time c.queue l).map (fun r => ((⟨r.1, c.keys⟩ : Shared S D T), r.2)) →
        (∀ c' : Shared S D T, c'.keys = c.keys → c'.run time sensor rest = (OMQ.run traj time c'.queue (rest.flatMap (ops sensor sens))).map fun r => (⟨r.1, c'.keys⟩, r.2)) →
        c.run time sensor (o :: rest) = (OMQ.run traj time c.queue ((o :: rest).flatMap (ops sensor sens))).map fun r => (⟨r.1, c.keys⟩, r.2) := by
      intro l hl h1 h2
      rw [List.flatMap_cons, hl, OMQ.run_append]
      simp only [Shared.run, Option.bind_eq_bind]
      rw [h1]
      cases OMQ.run traj time c.queue l with
      | none => rfl
      | some r =>
        simp only [Option.map_some, Option.bind_some]
        rw [h2 ⟨r.1, c.keys⟩ rfl]
        cases OMQ.run traj time r.1 (rest.flatMap (ops sensor sens)) <;> rfl
    cases o with
    | add j l => exact absurd hp (by simp [Proper])
    | data j d =>
      refine hstep _ rfl ?_ (fun c' hc' => ih active c' (by rw [hc']; exact hk) hp.2)
      simp only [Shared.step, ops, OMQ.run, OMQ.step, Option.bind_eq_bind]
      cases OMQ.add traj time c.queue (key j (sensor d)) d <;> simp
    | finish j =>
      refine hstep _ rfl ?_ (fun c' hc' => ih _ c' (fun i hi => by rw [hc']; exact hk i hi.1) hp.2)
      have he : ops sensor sens (.finish j : Call S D) = ((sens j).map (key j)).map .finish := by simp [ops, Function.comp_def]
      rw [he, ← OMQ.markAll_eq_run]
      simp only [Shared.step, Option.bind_eq_bind, hk j hp.1]
      cases OMQ.markAll traj time c.queue ((sens j).map (key j)) <;> simp
    | flush =>
      refine hstep _ rfl ?_ (fun c' hc' => ih _ c' (fun i hi => absurd hi (by simp)) hp)
      simp only [Shared.step, ops, OMQ.run, OMQ.step, Option.bind_eq_bind]
      cases OMQ.flush traj time c.queue <;> simp

theorem addQueues_append (a b : List (Key S)) : ∀ s : Queues S D T, OMQ.addQueues s (a ++ b) = (OMQ.addQueues s a).bind fun s => OMQ.addQueues s b := by
  induction a with
  | nil => intro s; rfl
  | cons k a ih =>
    intro s
    simp only [List.cons_append, OMQ.addQueues]
    cases OMQ.addQueue s k with
    | none => rfl
    | some t => simp [ih]

theorem shared_adds {sens : ℤ → List S} (rest : List (Call S D)) : ∀ (js : List ℤ) (c : Shared S D T), js.Nodup →
    c.run time sensor (session js sens rest) = (OMQ.addQueues c.queue (allKeys js sens)).bind fun q => (⟨q, fun i => if i ∈ js then c.keys i ++ (sens i).map (key i) else c.keys i⟩ : Shared S D T).run time sensor rest := by
  intro js
  induction js with
  | nil =>
    intro c _
    simp [session, allKeys, OMQ.addQueues]
  | cons j js ih =>
    intro c hn
    rw [List.nodup_cons] at hn
    have e1 : session (j :: js) sens rest = .add j (sens j) :: session js sens rest := rfl
    have e2 : allKeys (j :: js) sens = (sens j).map (key j) ++ allKeys js sens := by simp [allKeys]
    rw [e1, e2, addQueues_append]
    simp only [Shared.run, Shared.step, Option.bind_eq_bind]
    cases OMQ.addQueues c.queue ((sens j).map (key j)) with
    | none => rfl
    | some q =>
      simp only [Option.bind_some]
      rw [ih _ hn.2]
      have e3 : (fun i => if i ∈ js then (if i = j then c.keys j ++ (sens j).map (key j) else c.keys i) ++ (sens i).map (key i) else if i = j then c.keys j ++ (sens j).map (key j) else c.keys i) =
          fun i => if i ∈ j :: js then c.keys i ++ (sens i).map (key i) else c.keys i := by
        funext i
        by_cases hij : i = j
        · subst hij
          simp [hn.1]
        · simp [hij]
      simp only [e3]
      cases OMQ.addQueues q (allKeys js sens) with
      | none => rfl
      | some q' =>
        simp only [Option.bind_some]
        cases Shared.run time sensor _ rest <;> simp

theorem shared_session {js : List ℤ} {sens : ℤ → List S} (hs : Setup js sens) {rest : List (Call S D)} (hp : Proper (· ∈ js) rest) :
    (Shared.init : Shared S D T).run time sensor (session js sens rest) =
      (OMQ.runFrom traj time (allKeys js sens) (rest.flatMap (ops sensor sens))).map fun r => (⟨r.1, fun i => if i ∈ js then (sens i).map (key i) else []⟩, r.2) := by
  rw [shared_adds rest js _ hs.distinct]
  unfold OMQ.runFrom
  change (OMQ.addQueues OMQ.init (allKeys js sens)).bind _ = _
  cases OMQ.addQueues (OMQ.init : Queues S D T) (allKeys js sens) with
  | none => rfl
  | some q =>
    simp only [Option.bind_some]
    have hk : (Shared.init : Shared S D T).keys = fun _ => [] := rfl
    rw [hk, shared_rest (sens := sens) rest (· ∈ js) _ (by intro j hj; simp [hj]) hp]
    simp

/-! ### One trajectory alone -/

theorem finishKeys_eq (ks : List (Key S)) : ∀ q : Queues S D T, finishKeys time (some q) ks = (OMQ.markAll traj time q ks).map fun r => (some r.1, r.2) := by
  induction ks with
  | nil => intro q; rfl
  | cons k ks ih =>
    intro q
    simp only [finishKeys, OMQ.markAll, Option.bind_eq_bind, Option.bind_some]
    cases OMQ.markFinished traj time q k with
    | none => rfl
    | some r =>
      simp only [Option.bind_some, ih]
      cases OMQ.markAll traj time r.1 ks <;> rfl

theorem part_rest {sens : ℤ → List S} {j : ℤ} : ∀ (rest : List (Call S D)) (active : ℤ → Prop) (q : Queues S D T), Proper active rest →
    partRun time sensor j (some q, (sens j).map (key j)) rest = (OMQ.run traj time q ((only j rest).flatMap (ops sensor sens))).map fun r => ((some r.1, (sens j).map (key j)), r.2) := by
  intro rest
  induction rest with
  | nil => intro active q _; rfl
  | cons o rest ih =>
    intro active q hp
    have hrest : ∃ a, Proper a rest := by
      cases o with
      | add j l => exact absurd hp (by simp [Proper])
      | data j d => exact ⟨_, hp.2⟩
      | finish j => exact ⟨_, hp.2⟩
      | flush => exact ⟨_, hp⟩
    obtain ⟨a, ha⟩ := hrest
    cases hab : About j o with
    | false =>
      have : only j (o :: rest) = only j rest := by simp [only, hab]
      rw [this, ← ih a q ha]
      simp only [partRun, partStep_other hab, Option.bind_some, List.nil_append]
      cases partRun time sensor j (some q, (sens j).map (key j)) rest <;> simp
    | true =>
      have : only j (o :: rest) = o :: only j rest := by simp [only, hab]
      rw [this, List.flatMap_cons, OMQ.run_append]
      have hstep : partStep time sensor j (some q, (sens j).map (key j)) o = (OMQ.run traj time q (ops sensor sens o)).map fun r => ((some r.1, (sens j).map (key j)), r.2) := by
        cases o with
        | add i l => exact absurd hp (by simp [Proper])
        | data i d =>
          simp only [About, decide_eq_true_eq] at hab
          subst hab
          simp only [partStep, ops, OMQ.run, OMQ.step, ne_eq, not_true_eq_false, if_false, Option.bind_some]
          cases OMQ.add traj time q (key i (sensor d)) d <;> simp
        | finish i =>
          simp only [About, decide_eq_true_eq] at hab
          subst hab
          have he : ops sensor sens (.finish i : Call S D) = ((sens i).map (key i)).map .finish := by simp [ops, Function.comp_def]
          rw [he, ← OMQ.markAll_eq_run]
          simp only [partStep, ne_eq, not_true_eq_false, if_false, finishKeys_eq]
          cases OMQ.markAll traj time q ((sens i).map (key i)) <;> simp
        | flush =>
          simp only [partStep, ops, OMQ.run, OMQ.step]
          cases OMQ.flush traj time q <;> simp
      simp only [partRun]
      rw [hstep]
      cases OMQ.run traj time q (ops sensor sens o) with
      | none => rfl
      | some r =>
        simp only [Option.map_some, Option.bind_some]
        rw [ih a r.1 ha]
        cases OMQ.run traj time r.1 ((only j rest).flatMap (ops sensor sens)) <;> rfl

theorem part_adds_other {sens : ℤ → List S} {j : ℤ} (rest : List (Call S D)) : ∀ (js : List ℤ) (p : Part S D T), j ∉ js →
    partRun time sensor j p (session js sens rest) = partRun time sensor j p rest := by
  intro js
  induction js with
  | nil => intro p _; rfl
  | cons i js ih =>
    intro p hj
    simp only [List.mem_cons, not_or] at hj
    have : session (i :: js) sens rest = .add i (sens i) :: session js sens rest := rfl
    have hs : partStep time sensor j p (.add i (sens i)) = some (p, []) := partStep_other (by simpa [About] using fun h => hj.1 (Eq.symm h))
    rw [this]
    simp only [partRun, hs, Option.bind_some, List.nil_append, ih p hj.2]
    cases partRun time sensor j p rest <;> simp

theorem part_adds {sens : ℤ → List S} {j : ℤ} (hsens : sens j ≠ []) (rest : List (Call S D)) : ∀ (js : List ℤ), js.Nodup → j ∈ js →
    partRun time sensor j ((none, []) : Part S D T) (session js sens rest) = (OMQ.addQueues OMQ.init ((sens j).map (key j))).bind fun q => partRun time sensor j (some q, (sens j).map (key j)) rest := by
  intro js
  induction js with
  | nil => intro _ h; simp at h
  | cons i js ih =>
    intro hn hj
    rw [List.nodup_cons] at hn
    have : session (i :: js) sens rest = .add i (sens i) :: session js sens rest := rfl
    rw [this]
    by_cases hij : i = j
    · subst hij
      simp only [partRun, partStep, ne_eq, not_true_eq_false, if_false, hsens, List.nil_append]
      cases OMQ.addQueues (OMQ.init : Queues S D T) ((sens i).map (key i)) with
      | none => rfl
      | some q =>
        simp only [Option.map_some, Option.bind_some]
        rw [part_adds_other rest js _ hn.1]
        cases partRun time sensor i (some q, (sens i).map (key i)) rest <;> simp
    · have hjs : j ∈ js := by
        rcases List.mem_cons.1 hj with h | h
        · exact absurd h.symm hij
        · exact h
      have hs : partStep time sensor j ((none, []) : Part S D T) (.add i (sens i)) = some ((none, []), []) := partStep_other (by simp [About, hij])
      simp only [partRun, hs, Option.bind_some, ih hn.2 hjs, List.nil_append]
      cases (OMQ.addQueues (OMQ.init : Queues S D T) ((sens j).map (key j))).bind fun q => partRun time sensor j (some q, (sens j).map (key j)) rest <;> simp

theorem part_session {js : List ℤ} {sens : ℤ → List S} (hs : Setup js sens) {rest : List (Call S D)} (hp : Proper (· ∈ js) rest) {j : ℤ} (hj : j ∈ js) :
    partRun time sensor j ((none, []) : Part S D T) (session js sens rest) =
      (OMQ.runFrom traj time (allKeys [j] sens) ((only j rest).flatMap (ops sensor sens))).map fun r => ((some r.1, (sens j).map (key j)), r.2) := by
  rw [part_adds (hs.sensors j hj).2 rest js hs.distinct hj]
  have : allKeys [j] sens = (sens j).map (key j) := by simp [allKeys]
  rw [this]
  unfold OMQ.runFrom
  cases OMQ.addQueues (OMQ.init : Queues S D T) ((sens j).map (key j)) with
  | none => rfl
  | some q =>
    simp only [Option.bind_some]
    exact part_rest rest _ q hp

theorem part_session_other {js : List ℤ} {sens : ℤ → List S} {j : ℤ} (hj : j ∉ js) : ∀ {rest : List (Call S D)} {active : ℤ → Prop}, (∀ i, active i → i ∈ js) → Proper active rest →
    partRun time sensor j ((none, []) : Part S D T) (session js sens rest) = some ((none, []), []) := by
  intro rest active ha hp
  rw [part_adds_other rest js _ hj]
  induction rest generalizing active with
  | nil => rfl
  | cons o rest ih =>
    cases o with
    | add i l => exact absurd hp (by simp [Proper])
    | data i d =>
      have : i ≠ j := by rintro rfl; exact hj (ha _ hp.1)
      simp [partRun, partStep, this, ih ha hp.2]
    | finish i =>
      have : i ≠ j := by rintro rfl; exact hj (ha _ hp.1)
      simp [partRun, partStep, this, ih (fun i hi => ha i hi.1) hp.2]
    | flush => simp [partRun, partStep, ih (active := fun _ => False) (by simp) hp]

theorem proper_only (j : ℤ) : ∀ (rest : List (Call S D)) (active active' : ℤ → Prop), (active j → active' j) → Proper active rest → Proper active' (only j rest) := by
  intro rest
  induction rest with
  | nil => intro _ _ _ _; trivial
  | cons o rest ih =>
    intro active active' h hp
    cases o with
    | add i l => exact absurd hp (by simp [Proper])
    | data i d =>
      by_cases hij : i = j
      · subst hij
        have : only i (.data i d :: rest) = .data i d :: only i rest := by simp [only, About]
        rw [this]
        exact ⟨h hp.1, ih active active' h hp.2⟩
      · have : only j (.data i d :: rest) = only j rest := by simp [only, About, hij]
        rw [this]
        exact ih active active' h hp.2
    | finish i =>
      by_cases hij : i = j
      · subst hij
        have : only i (.finish i :: rest) = .finish i :: only i rest := by simp [only, About]
        rw [this]
        exact ⟨h hp.1, ih _ _ (by simp) hp.2⟩
      · have : only j (.finish i :: rest) = only j rest := by simp [only, About, hij]
        rw [this]
        exact ih (fun k => active k ∧ k ≠ i) active' (fun hx => h hx.1) hp.2
    | flush =>
      have : only j (.flush :: rest) = .flush :: only j rest := rfl
      rw [this]
      exact ih _ _ (by simp) hp

theorem received_only (j : ℤ) (s : S) (rest : List (Call S D)) : received sensor j s (only j rest) = received sensor j s rest := by
  induction rest with
  | nil => rfl
  | cons o rest ih =>
    cases o with
    | add i l => by_cases h : i = j <;> simp [only, About, received, h] <;> exact ih
    | data i d =>
      by_cases h : i = j
      · simp only [only, About, h, decide_true, List.filter_cons, if_true, received]
        rw [show received sensor j s (rest.filter (About j)) = received sensor j s rest from ih]
      · simp only [only, About, h, decide_false, List.filter_cons, Bool.false_eq_true, if_false, received, false_and]
        exact ih
    | finish i => by_cases h : i = j <;> simp [only, About, received, h] <;> exact ih
    | flush => exact ih

theorem ended_only (j : ℤ) (rest : List (Call S D)) : Ended j (only j rest) ↔ Ended j rest := by
  induction rest with
  | nil => rfl
  | cons o rest ih =>
    cases o with
    | add i l => by_cases h : i = j <;> simp [only, About, Ended, h] <;> exact ih
    | data i d => by_cases h : i = j <;> simp [only, About, Ended, h] <;> exact ih
    | finish i =>
      by_cases h : i = j
      · simp [only, About, Ended, h]
      · simp [only, About, Ended, h]; exact ih
    | flush => exact Iff.rfl

theorem setup_one {js : List ℤ} {sens : ℤ → List S} (hs : Setup js sens) {j : ℤ} (hj : j ∈ js) : Setup [j] sens := ⟨by simp, by simpa using hs.sensors j hj⟩

theorem mem_one {js : List ℤ} {sens : ℤ → List S} {j : ℤ} (hj : j ∈ js) (k : Key S) : k ∈ allKeys [j] sens ↔ k ∈ allKeys js sens ∧ traj k = j := by
  obtain ⟨i, s, rfl, hi⟩ := exists_key k
  rw [mem_allKeys, mem_allKeys, hi]
  simp only [List.mem_singleton]
  constructor
  · rintro ⟨rfl, h⟩
    exact ⟨⟨hj, h⟩, rfl⟩
  · rintro ⟨⟨_, h⟩, rfl⟩
    exact ⟨rfl, h⟩

theorem sorted_ops {js : List ℤ} {sens : ℤ → List S} {rest : List (Call S D)} (ho : InOrder time sensor js sens rest) : OMQ.SortedInput time (allKeys js sens) (rest.flatMap (ops sensor sens)) := by
  intro k hk
  obtain ⟨j, s, rfl, _⟩ := exists_key k
  obtain ⟨h1, h2⟩ := mem_allKeys.1 hk
  rw [input_ops]
  exact ho j h1 s h2

theorem valid_session {js : List ℤ} {sens : ℤ → List S} (hs : Setup js sens) {rest : List (Call S D)} (hp : Proper (· ∈ js) rest) :
    OMQ.Valid (· ∈ allKeys js sens) (· ∈ allKeys js sens) (rest.flatMap (ops sensor sens)) := by
  refine (valid_ops hs rest (· ∈ js) (fun _ h => h) hp).congr _ ?_
  intro k
  obtain ⟨j, s, rfl, hj⟩ := exists_key k
  rw [hj]
  constructor
  · exact fun h => h.1
  · exact fun h => ⟨h, (mem_allKeys.1 h).1⟩

/-- The collator by trajectory in terms of queues that are apart. -/
theorem single_session {order : List ℤ → List ℤ} (ho : ∀ l, (order l).Perm l) {js : List ℤ} {sens : ℤ → List S} (hs : Setup js sens) {rest : List (Call S D)} (hp : Proper (· ∈ js) rest)
    {f : ℤ → Queues S D T × List (Key S × D)} (h : ∀ j ∈ js, OMQ.runFrom traj time (allKeys [j] sens) ((only j rest).flatMap (ops sensor sens)) = some (f j)) :
    ∃ c out, (Single.init : Single S D T).run time sensor order (session js sens rest) = some (c, out) ∧ (∀ j ∈ js, delivered j out = (f j).2) ∧ ∀ j, j ∉ js → delivered j out = [] := by
  obtain ⟨h1, h2⟩ := run_parts (time := time) (sensor := sensor) ho (session js sens rest) wf_init
  have hi : ∀ j, (((Single.init : Single S D T).queues j, (Single.init : Single S D T).keys j) : Part S D T) = (none, []) := fun _ => rfl
  cases hr : (Single.init : Single S D T).run time sensor order (session js sens rest) with
  | none =>
    obtain ⟨j, hj⟩ := h2 hr
    rw [hi] at hj
    by_cases hm : j ∈ js
    · rw [part_session hs hp hm, h j hm] at hj
      cases hj
    · rw [part_session_other hm (fun _ h => h) hp] at hj
      cases hj
  | some r =>
    refine ⟨r.1, r.2, rfl, ?_, ?_⟩
    · intro j hm
      have := h1 r.1 r.2 hr j
      rw [hi, part_session hs hp hm, h j hm] at this
      simp only [Option.map_some, Option.some.injEq, Prod.mk.injEq] at this
      exact this.2.symm
    · intro j hm
      have := h1 r.1 r.2 hr j
      rw [hi, part_session_other hm (fun _ h => h) hp] at this
      simp only [Option.some.injEq, Prod.mk.injEq] at this
      exact this.2.symm

/-- **The one is never ahead of the other**: at any time both collators have delivered without aborting, the common one in the order of time, and for each trajectory it has delivered a
part from the front of what the collator by trajectory has. -/
theorem shared_behind {order : List ℤ → List ℤ} (hord : ∀ l, (order l).Perm l) {js : List ℤ} {sens : ℤ → List S} (hs : Setup js sens) {rest : List (Call S D)} (hp : Proper (· ∈ js) rest)
    (ho : InOrder time sensor js sens rest) :
    ∃ c out c' out', (Shared.init : Shared S D T).run time sensor (session js sens rest) = some (c, out) ∧ (Single.init : Single S D T).run time sensor order (session js sens rest) = some (c', out') ∧
      out.Pairwise (fun a b => time a.2 ≤ time b.2) ∧ ∀ j, delivered j out <+: delivered j out' ∧ (delivered j out').Pairwise fun a b => time a.2 ≤ time b.2 := by
  have hone : ∀ j ∈ js, ∃ s s' outs outs', OMQ.runFrom (J := ℤ) traj time (allKeys js sens) (rest.flatMap (ops sensor sens)) = some (s, outs) ∧
      OMQ.runFrom (J := ℤ) traj time (allKeys [j] sens) ((only j rest).flatMap (ops sensor sens)) = some (s', outs') ∧ outs.filter (fun o => traj o.1 = j) <+: outs' := by
    intro j hj
    refine OMQ.never_ahead (nodup_allKeys hs) (nodup_allKeys (setup_one hs hj)) (mem_one hj) (valid_session hs hp)
      (valid_session (setup_one hs hj) (proper_only j rest _ _ (by simp) hp)) (sorted_ops ho) ?_ ?_
    · intro k hk
      obtain ⟨i, s, rfl, _⟩ := exists_key k
      obtain ⟨h1, _⟩ := mem_allKeys.1 hk
      rw [List.mem_singleton.1 h1, input_ops, input_ops, received_only]
    · intro k hk
      obtain ⟨i, s, rfl, _⟩ := exists_key k
      obtain ⟨h1, h2⟩ := mem_allKeys.1 hk
      rw [List.mem_singleton] at h1
      subst h1
      rw [closes_ops h2, closes_ops h2, ended_only]
  obtain ⟨s, outs, hrun, hsort, _⟩ := OMQ.collated_in_time_order (traj := traj) (nodup_allKeys hs) (valid_session hs hp) (sorted_ops (sensor := sensor) ho)
  have hone' : ∀ j, ∃ r : Queues S D T × List (Key S × D), j ∈ js → OMQ.runFrom (J := ℤ) traj time (allKeys [j] sens) ((only j rest).flatMap (ops sensor sens)) = some r ∧ outs.filter (fun o => traj o.1 = j) <+: r.2 := by
    intro j
    by_cases hj : j ∈ js
    · obtain ⟨t, t', o, o', e1, e2, e3⟩ := hone j hj
      rw [hrun] at e1
      cases e1
      exact ⟨(t', o'), fun _ => ⟨e2, e3⟩⟩
    · exact ⟨(OMQ.init, []), fun h => absurd h hj⟩
  choose f hf using hone'
  obtain ⟨c', out', g1, g2, g3⟩ := single_session hord hs hp fun j hj => (hf j hj).1
  refine ⟨_, outs, c', out', by rw [shared_session hs hp, hrun]; rfl, g1, hsort, ?_⟩
  intro j
  by_cases hj : j ∈ js
  · rw [g2 j hj]
    refine ⟨(hf j hj).2, ?_⟩
    have hsort' : InOrder time sensor [j] sens (only j rest) := by
      intro i hi s hs'
      rw [List.mem_singleton.1 hi] at hs' ⊢
      rw [received_only]
      exact ho j hj s hs'
    obtain ⟨t, o, e1, e2, _⟩ := OMQ.collated_in_time_order (traj := traj) (nodup_allKeys (setup_one hs hj)) (valid_session (setup_one hs hj) (proper_only j rest _ (· ∈ [j]) (by simp) hp)) (sorted_ops (sensor := sensor) hsort')
    rw [(hf j hj).1, Option.some.injEq] at e1
    rw [e1]
    exact e2
  · rw [g3 j hj]
    refine ⟨?_, by simp⟩
    have : delivered j outs = [] := by
      unfold delivered
      rw [List.filter_eq_nil_iff]
      intro o hm
      have hreg := (OMQ.collated_no_duplication (traj := traj) (nodup_allKeys hs) (valid_session hs hp) (sorted_ops (sensor := sensor) ho) hrun).2 o hm
      obtain ⟨i, s, h1, h2⟩ := exists_key o.1
      rw [h1] at hreg
      have := (mem_allKeys.1 hreg).1
      rw [h2]
      simp only [decide_eq_true_eq]
      rintro rfl
      exact hj this
    rw [this]
    simp

/-- **Both collators deliver the same for each trajectory** once all trajectories have ended. -/
theorem same_deliveries {order : List ℤ → List ℤ} (hord : ∀ l, (order l).Perm l) {js : List ℤ} {sens : ℤ → List S} (hs : Setup js sens) {rest : List (Call S D)} (hp : Proper (· ∈ js) rest)
    (ho : InOrder time sensor js sens rest) (hend : ∀ j ∈ js, Ended j rest) :
    ∃ c out c' out', (Shared.init : Shared S D T).run time sensor (session js sens rest) = some (c, out) ∧ (Single.init : Single S D T).run time sensor order (session js sens rest) = some (c', out') ∧
      ∀ j, delivered j out = delivered j out' := by
  obtain ⟨c, out, c', out', h1, h2, _, h4⟩ := shared_behind hord hs hp ho
  refine ⟨c, out, c', out', h1, h2, ?_⟩
  intro j
  by_cases hj : j ∈ js
  · obtain ⟨s, s', outs, e1, e2⟩ := OMQ.collation_restrict (j := j) (traj := traj) (time := time) (nodup_allKeys hs) (nodup_allKeys (setup_one hs hj)) (mem_one hj) (valid_session (sensor := sensor) hs hp)
      (valid_session (sensor := sensor) (setup_one hs hj) (proper_only j rest _ (· ∈ [j]) (by simp) hp)) (sorted_ops ho) (by
        intro k hk
        obtain ⟨i, s, rfl, _⟩ := exists_key k
        obtain ⟨h1, _⟩ := mem_allKeys.1 hk
        rw [List.mem_singleton.1 h1, input_ops, input_ops, received_only]) (by
        intro k hk
        obtain ⟨i, s, rfl, _⟩ := exists_key k
        obtain ⟨h1, h2⟩ := mem_allKeys.1 hk
        rw [closes_ops h2]
        exact hend i h1) (by
        intro k hk
        obtain ⟨i, s, rfl, _⟩ := exists_key k
        obtain ⟨h1, h2⟩ := mem_allKeys.1 hk
        rw [List.mem_singleton] at h1
        subst h1
        rw [closes_ops h2, ended_only]
        exact hend i hj)
    rw [shared_session hs hp, e1] at h1
    simp only [Option.map_some, Option.some.injEq, Prod.mk.injEq] at h1
    have hpart := (run_parts (time := time) (sensor := sensor) hord (session js sens rest) wf_init).1 _ _ h2 j
    rw [show (((Single.init : Single S D T).queues j, (Single.init : Single S D T).keys j) : Part S D T) = (none, []) from rfl, part_session hs hp hj, e2] at hpart
    simp only [Option.map_some, Option.some.injEq, Prod.mk.injEq] at hpart
    rw [← hpart.2, ← h1.2]
    rfl
  · have hpart := (run_parts (time := time) (sensor := sensor) hord (session js sens rest) wf_init).1 _ _ h2 j
    rw [show (((Single.init : Single S D T).queues j, (Single.init : Single S D T).keys j) : Part S D T) = (none, []) from rfl, part_session_other hj (fun _ h => h) hp] at hpart
    simp only [Option.some.injEq, Prod.mk.injEq] at hpart
    have := (h4 j).1
    rw [← hpart.2] at this ⊢
    simpa using this

/-! ### What aborts and what is ignored -/

theorem finished_again {reg : Key S → Prop} {added : Key S → List D} {fin : Key S → Bool} {q : Queues S D T} {outs : List (Key S × D)} (i : OMQ.Inv traj time reg added fin q outs) {k : Key S}
    (hf : fin k = true) : OMQ.markFinished traj time q k = none := by
  unfold OMQ.markFinished
  cases h : OMQ.find k q.queues with
  | none => rfl
  | some x =>
    have := i.finq _ (OMQ.mem_of_find h)
    simp only [hf] at this
    simp [this]

theorem shared_run_append (a b : List (Call S D)) : ∀ c : Shared S D T, c.run time sensor (a ++ b) = (c.run time sensor a).bind fun r => (r.1.run time sensor b).map fun r' => (r'.1, r.2 ++ r'.2) := by
  induction a with
  | nil =>
    intro c
    simp only [List.nil_append, Shared.run, Option.bind_some]
    cases c.run time sensor b <;> simp
  | cons o a ih =>
    intro c
    simp only [List.cons_append, Shared.run, Option.bind_eq_bind]
    cases c.step time sensor o with
    | none => rfl
    | some r =>
      simp only [Option.bind_some, ih]
      cases r.1.run time sensor a with
      | none => rfl
      | some r' =>
        simp only [Option.bind_some]
        cases r'.1.run time sensor b <;> simp

theorem partRun_append (j : ℤ) (a b : List (Call S D)) : ∀ p : Part S D T, partRun time sensor j p (a ++ b) =
    (partRun time sensor j p a).bind fun r => (partRun time sensor j r.1 b).map fun r' => (r'.1, r.2 ++ r'.2) := by
  induction a with
  | nil =>
    intro p
    simp only [List.nil_append, partRun, Option.bind_some]
    cases partRun time sensor j p b <;> simp
  | cons o a ih =>
    intro p
    simp only [List.cons_append, partRun]
    cases partStep time sensor j p o with
    | none => rfl
    | some r =>
      simp only [Option.bind_some, ih]
      cases partRun time sensor j r.1 a with
      | none => rfl
      | some r' =>
        simp only [Option.bind_some, Option.map_some]
        cases partRun time sensor j r'.1 b <;> simp

/-- **Finishing a trajectory that has ended aborts** with both collators, also if it ended by a flush. -/
theorem finish_again {order : List ℤ → List ℤ} (hord : ∀ l, (order l).Perm l) {js : List ℤ} {sens : ℤ → List S} (hs : Setup js sens) {rest : List (Call S D)} (hp : Proper (· ∈ js) rest)
    (ho : InOrder time sensor js sens rest) {j : ℤ} (hj : j ∈ js) (hend : Ended j rest) :
    (Shared.init : Shared S D T).run time sensor (session js sens (rest ++ [.finish j])) = none ∧
      (Single.init : Single S D T).run time sensor order (session js sens (rest ++ [.finish j])) = none := by
  have hsplit : session js sens (rest ++ [.finish j]) = session js sens rest ++ [.finish j] := by simp [session]
  obtain ⟨s0, l, hsl⟩ := List.exists_cons_of_ne_nil (hs.sensors j hj).2
  have hs0 : s0 ∈ sens j := by rw [hsl]; exact List.mem_cons_self
  rw [hsplit]
  constructor
  · obtain ⟨q, outs, fin, e, i, f, _⟩ := OMQ.runFrom_spec (traj := traj) (nodup_allKeys hs) (valid_session (sensor := sensor) hs hp) (sorted_ops ho)
    rw [shared_run_append, shared_session hs hp, e]
    have hf : fin (key j s0) = true := (f _ (mem_allKeys.2 ⟨hj, hs0⟩)).2 ((closes_ops hs0 rest).2 hend)
    simp [Shared.run, Shared.step, hj, hsl, OMQ.markAll, finished_again i hf]
  · have hone := setup_one hs hj
    have hpo := proper_only j rest (· ∈ js) (· ∈ [j]) (by simp) hp
    have hsort' : InOrder time sensor [j] sens (only j rest) := by
      intro i hi s hs'
      rw [List.mem_singleton.1 hi] at hs' ⊢
      rw [received_only]
      exact ho j hj s hs'
    obtain ⟨q, outs, fin, e, i, f, _⟩ := OMQ.runFrom_spec (traj := traj) (nodup_allKeys hone) (valid_session (sensor := sensor) hone hpo) (sorted_ops hsort')
    have hf : fin (key j s0) = true := (f _ (mem_allKeys.2 ⟨by simp, hs0⟩)).2 ((closes_ops hs0 _).2 ((ended_only j rest).2 hend))
    have hpart : partRun time sensor j ((none, []) : Part S D T) (session js sens rest ++ [.finish j]) = none := by
      rw [partRun_append, part_session hs hp hj, e]
      simp [partRun, partStep, hsl, finishKeys, finished_again i hf]
    cases hr : (Single.init : Single S D T).run time sensor order (session js sens rest ++ [.finish j]) with
    | none => rfl
    | some r =>
      have := (run_parts (time := time) (sensor := sensor) hord _ wf_init).1 r.1 r.2 hr j
      rw [show (((Single.init : Single S D T).queues j, (Single.init : Single S D T).keys j) : Part S D T) = (none, []) from rfl, hpart] at this
      cases this

/-- **Data of sensors that were not announced is ignored** by both collators. -/
theorem unknown_sensor (c : Shared S D T) (c' : Single S D T) (order : List ℤ → List ℤ) {j : ℤ} {d : D} :
    (OMQ.find (key j (sensor d)) c.queue.queues = none → c.step time sensor (.data j d) = some (c, [])) ∧
    ((∃ q, c'.queues j = some q ∧ OMQ.find (key j (sensor d)) q.queues = none) → ∃ c'', c'.step time sensor order (.data j d) = some (c'', []) ∧ c''.queues = c'.queues) := by
  constructor
  · intro h
    simp [Shared.step, OMQ.add, h]
  · rintro ⟨q, h1, h2⟩
    refine ⟨_, by simp only [Single.step, h1, Option.bind_eq_bind, Option.bind_some, OMQ.add, h2]; rfl, ?_⟩
    funext i
    by_cases hi : i = j
    · subst hi; simp [h1]
    · simp [hi]

/-- **A trajectory without collated sensors**: with one queue for all its data is ignored, with one queue for each the first data aborts. -/
theorem no_sensors (order : List ℤ → List ℤ) (j : ℤ) (d : D) :
    (∃ c, (Shared.init : Shared S D T).run time sensor [.add j [], .data j d] = some (c, [])) ∧ (Single.init : Single S D T).run time sensor order [.add j [], .data j d] = none := by
  constructor
  · refine ⟨⟨OMQ.init, fun i => if i = j then [] ++ [] else []⟩, ?_⟩
    simp only [Shared.run, Shared.step, List.map_nil, OMQ.addQueues, Option.bind_eq_bind, Option.bind_some, Shared.init, OMQ.init, OMQ.add, OMQ.find, List.find?_nil, Option.map_none]
    rfl
  · simp [Single.run, Single.step, Single.init]

/-! ### Examples -/

/-- Times and sensors of the examples. -/
def exTime (d : Nat × Nat) : Nat := d.1
def exSensor (d : Nat × Nat) : Nat := d.2

/-- Two trajectories; trajectory 1 has one sensor and is slow. -/
def exCalls : List (Call Nat (Nat × Nat)) := [.data 0 (1, 0), .data 0 (2, 1), .data 0 (3, 0), .data 0 (4, 1), .data 1 (2, 0)]

/-- The collator by trajectory has delivered more of trajectory 0 than the common one; in the end both have delivered the same. -/
example : ((Shared.init : Shared Nat (Nat × Nat) Nat).run exTime exSensor (session [0, 1] (fun j => if j = 0 then [0, 1] else [0]) exCalls)).map (fun r => r.2.map Prod.snd) = some [(1, 0), (2, 1), (2, 0)] ∧
    ((Single.init : Single Nat (Nat × Nat) Nat).run exTime exSensor id (session [0, 1] (fun j => if j = 0 then [0, 1] else [0]) exCalls)).map (fun r => r.2.map Prod.snd) =
      some [(1, 0), (2, 1), (3, 0), (2, 0)] ∧
    ((Shared.init : Shared Nat (Nat × Nat) Nat).run exTime exSensor (session [0, 1] (fun j => if j = 0 then [0, 1] else [0]) (exCalls ++ [.flush]))).map (fun r => r.2.map Prod.snd) =
      some [(1, 0), (2, 1), (2, 0), (3, 0), (4, 1)] := by decide +kernel

/-- The hypotheses hold for it. -/
example : Setup [0, 1] (fun j : ℤ => if j = 0 then [0, 1] else [0]) ∧ Proper (· ∈ [0, 1]) (exCalls ++ [.flush]) ∧ InOrder exTime exSensor [0, 1] (fun j => if j = 0 then [0, 1] else [0]) (exCalls ++ [.flush]) ∧
    ∀ j ∈ [(0 : ℤ), 1], Ended j (exCalls ++ [.flush]) := by
  refine ⟨⟨by decide, by decide⟩, by simp [exCalls, Proper], ?_, ?_⟩
  · intro j hj s hs
    simp only [List.mem_cons, List.not_mem_nil, or_false] at hj
    rcases hj with rfl | rfl
    · simp only [if_true, List.mem_cons, List.not_mem_nil, or_false] at hs
      rcases hs with rfl | rfl <;> decide
    · simp only [one_ne_zero, if_false, List.mem_cons, List.not_mem_nil, or_false] at hs
      subst hs
      decide
  · simp [exCalls, Ended]

/-- A trajectory that is added late with older data does not matter to the collator by trajectory, but the common one aborts. -/
example : ((Single.init : Single Nat (Nat × Nat) Nat).run exTime exSensor id [.add 0 [0], .data 0 (5, 0), .add 1 [0], .data 1 (1, 0), .data 0 (6, 0)]).map (fun r => r.2.map Prod.snd) = some [(5, 0), (1, 0), (6, 0)] ∧
    ((Shared.init : Shared Nat (Nat × Nat) Nat).run exTime exSensor [.add 0 [0], .data 0 (5, 0), .add 1 [0], .data 1 (1, 0), .data 0 (6, 0)]).isNone := by decide +kernel

end Verif.Collators
