import Verif.SensorStreams
import Verif.Props.Collators
import Verif.Props.MapBuilderServer

/-!
# C98: sensor data sent through the client stub is collated as if it were given directly

For all programs of a client and all interleavings of its streams, the handlers and the SLAM thread.
-/

namespace Verif.SensorStreams

open Collators

set_option linter.unusedSectionVars false

variable {K S D T : Type} [DecidableEq K] [LinearOrder S] [LinearOrder T] {time : D → T} {sensor : D → S} {kind : D → K}

/-- The data of a stream among calls of the collator, among data on its way and among the calls of the client. -/
def called (kind : D → K) (j : ℤ) (k : K) (l : List (Call S D)) : List (ℤ × D) :=
  (l.filterMap fun c => match c with | .data i d => some (i, d) | _ => none).filter (inStream kind j k)

def asked (kind : D → K) (j : ℤ) (k : K) (l : List (Op D)) : List (ℤ × D) :=
  (l.filterMap fun c => match c with | .data i d => some (i, d) | _ => none).filter (inStream kind j k)

theorem called_direct (j : ℤ) (k : K) (l : List (Op D)) : called kind j k (direct l : List (Call S D)) = asked kind j k l := by
  unfold called asked
  congr 1
  induction l with
  | nil => rfl
  | cons o l ih => cases o <;> simp [direct, ih]

theorem filter_find {α : Type} (p q : α → Bool) : ∀ (l : List α) {e : α}, l.find? p = some e →
    (q e = true → ∀ x, q x = p x) → l.filter q = (if q e then [e] else []) ++ (l.eraseP p).filter q := by
  intro l
  induction l with
  | nil => intro e h; cases h
  | cons x l ih =>
    intro e h hq
    rw [List.find?_cons] at h
    cases hp : p x with
    | true =>
      rw [hp] at h
      cases h
      rw [List.eraseP_cons_of_pos hp, List.filter_cons]
      split <;> simp
    | false =>
      rw [hp] at h
      rw [List.eraseP_cons_of_neg (by simp [hp]), List.filter_cons, List.filter_cons, ih h hq]
      cases hqe : q e with
      | true =>
        have := hq hqe x
        rw [hp] at this
        simp [this]
      | false => simp

theorem find_stream {j : ℤ} {k : K} {l : List (ℤ × D)} {e : ℤ × D} (h : l.find? (inStream kind j k) = some e) (j' : ℤ) (k' : K) :
    l.filter (inStream kind j' k') = [e].filter (inStream kind j' k') ++ (l.eraseP (inStream kind j k)).filter (inStream kind j' k') := by
  rw [filter_find _ _ l h]
  · rw [List.filter_cons, List.filter_nil]
  · intro h1 x
    have h2 := List.find?_some h
    simp only [inStream, Bool.and_eq_true, decide_eq_true_eq] at h1 h2
    rw [← h1.1, ← h1.2, ← h2.1, ← h2.2]

/-- **Nothing is lost, duplicated or reordered within a stream**, in every state. -/
theorem stream_split {careful : Prop} {prog : List (Op D)} {s : State S D} (h : Reach kind careful prog s) (j : ℤ) (k : K) :
    called kind j k s.calls ++ s.queue.filter (inStream kind j k) ++ s.streams.filter (inStream kind j k) ++ asked kind j k s.todo = asked kind j k prog := by
  induction h with
  | init => simp [called]
  | @step s s' a _ hs _ ih =>
    cases a with
    | client =>
      simp only [step] at hs
      split at hs
      · cases hs
      · rename_i i d l ht
        cases hs
        rw [← ih, ht]
        simp only [List.filter_append, asked, List.filterMap_cons, List.filter_cons]
        split <;> simp_all
      · rename_i i l ht
        cases hs
        rw [← ih, ht]
        simp [called, asked]
    | handle i m =>
      simp only [step] at hs
      split at hs
      · cases hs
      · rename_i e he
        cases hs
        rw [← ih, find_stream he j k]
        simp
    | slam =>
      simp only [step] at hs
      split at hs
      · cases hs
      · rename_i e q hq
        cases hs
        rw [← ih, hq]
        simp only [called, List.filterMap_append, List.filter_append, List.filterMap_cons, List.filterMap_nil, List.filter_cons, List.filter_nil]
        split <;> simp

/-- The kind of a sensor is always the same. -/
def KindOk (sensor : D → S) (kind : D → K) (kindOf : S → K) : Prop := ∀ d, kind d = kindOf (sensor d)

theorem received_called {kindOf : S → K} (hk : KindOk sensor kind kindOf) (j : ℤ) (x : S) (l : List (Call S D)) :
    received sensor j x l = ((called kind j (kindOf x) l).filter fun e => sensor e.2 = x).map Prod.snd := by
  unfold called
  rw [List.filter_filter]
  induction l with
  | nil => rfl
  | cons c l ih =>
    cases c with
    | add i q => simp only [received, ih]; rfl
    | finish i => simp only [received, ih]; rfl
    | flush => simp only [received, ih]; rfl
    | data i d =>
      simp only [received, List.filterMap_cons]
      by_cases h : i = j ∧ sensor d = x
      · obtain ⟨rfl, rfl⟩ := h
        rw [if_pos ⟨rfl, rfl⟩, List.filter_cons_of_pos (by simp [inStream, hk d]), ih]
        rfl
      · rw [if_neg h, List.filter_cons_of_neg, ih]
        simp only [inStream, Bool.and_eq_true, decide_eq_true_eq]
        exact fun h1 => h ⟨h1.2.1, h1.1⟩

/-- **Each sensor's data reaches the collator in order**: at any time what it was given of a sensor is a part from the front of what the client gave. -/
theorem order_kept {careful : Prop} {kindOf : S → K} (hk : KindOk sensor kind kindOf) {prog : List (Op D)} {s : State S D} (h : Reach kind careful prog s) (j : ℤ) (x : S) :
    received sensor j x s.calls <+: received sensor j x (direct prog) := by
  rw [received_called hk, received_called hk, called_direct, ← stream_split h j (kindOf x)]
  simp only [List.append_assoc, List.filter_append, List.map_append]
  exact List.prefix_append _ _

/-- **All of it arrives** once all is done, whatever was finished when. -/
theorem all_arrive {careful : Prop} {kindOf : S → K} (hk : KindOk sensor kind kindOf) {prog : List (Op D)} {s : State S D} (h : Reach kind careful prog s) (hf : Final s) (j : ℤ) (x : S) :
    received sensor j x s.calls = received sensor j x (direct prog) := by
  rw [received_called hk, received_called hk, called_direct, ← stream_split h j (kindOf x), hf.1, hf.2.1, hf.2.2]
  simp [asked]

/-- Data on its way can always arrive. -/
theorem can_drain {careful : Prop} {prog : List (Op D)} : ∀ (n : ℕ) {s : State S D}, 2 * s.streams.length + s.queue.length = n → Reach kind careful prog s →
    ∃ s' : State S D, Reach kind careful prog s' ∧ s'.todo = s.todo ∧ s'.streams = [] ∧ s'.queue = [] := by
  intro n
  induction n using Nat.strong_induction_on with
  | _ n ih =>
    intro s hn h
    cases hq : s.queue with
    | cons e q =>
      have hs : step kind s .slam = some { s with queue := q, calls := s.calls ++ [.data e.1 e.2] } := by simp only [step, hq]
      obtain ⟨s', h1, h2, h3⟩ := ih (2 * s.streams.length + q.length) (by rw [← hn, hq]; simp) rfl (h.step hs (fun _ => by simp [Waits]))
      exact ⟨s', h1, h2, h3⟩
    | nil =>
      cases ht : s.streams with
      | nil => exact ⟨s, h, rfl, ht, hq⟩
      | cons e l =>
        have hs : step kind s (.handle e.1 (kind e.2)) = some { s with streams := l, queue := [e] } := by
          have : inStream kind e.1 (kind e.2) e = true := by simp [inStream]
          simp only [step, ht, hq, List.find?_cons, this, List.eraseP_cons_of_pos this, List.nil_append]
        obtain ⟨s', h1, h2, h3⟩ := ih (2 * l.length + 1) (by rw [← hn, hq, ht]; simp; omega) rfl (h.step hs (fun _ => by simp [Waits]))
        exact ⟨s', h1, h2, h3⟩

/-! ### Clients that wait -/

/-- The trajectories that have not been finished by these calls. -/
def After (active : ℤ → Prop) (l : List (Call S D)) (j : ℤ) : Prop := active j ∧ ∀ c ∈ l, c ≠ .finish j

theorem proper_congr : ∀ (l : List (Call S D)) {a b : ℤ → Prop}, (∀ j, a j → b j) → Proper a l → Proper b l := by
  intro l
  induction l with
  | nil => intro a b _ _; trivial
  | cons c l ih =>
    intro a b h hp
    cases c with
    | add i q => exact hp
    | data i d => exact ⟨h i hp.1, ih h hp.2⟩
    | finish i => exact ⟨h i hp.1, ih (fun j hj => ⟨h j hj.1, hj.2⟩) hp.2⟩
    | flush => exact hp

/-- No flush among the calls. -/
def NoFlush (l : List (Call S D)) : Prop := ∀ c ∈ l, c ≠ .flush

theorem proper_append : ∀ (l m : List (Call S D)) {active : ℤ → Prop}, NoFlush l → Proper active l → Proper (After active l) m → Proper active (l ++ m) := by
  intro l
  induction l with
  | nil =>
    intro m active _ _ h
    exact proper_congr m (fun j hj => hj.1) h
  | cons c l ih =>
    intro m active hn hp h
    have hn' : NoFlush l := fun x hx => hn x (List.mem_cons_of_mem _ hx)
    cases c with
    | add i q => exact absurd hp (by simp [Proper])
    | data i d =>
      refine ⟨hp.1, ih m hn' hp.2 (proper_congr m ?_ h)⟩
      exact fun j hj => ⟨hj.1, fun c hc => hj.2 c (List.mem_cons_of_mem _ hc)⟩
    | finish i =>
      refine ⟨hp.1, ih m hn' hp.2 (proper_congr m ?_ h)⟩
      intro j hj
      refine ⟨⟨hj.1, ?_⟩, fun c hc => hj.2 c (List.mem_cons_of_mem _ hc)⟩
      rintro rfl
      exact hj.2 _ List.mem_cons_self rfl
    | flush => exact absurd rfl (hn .flush List.mem_cons_self)

/-- What holds as long as the client waits. -/
structure Orderly (active : ℤ → Prop) (s : State S D) : Prop where
  noflush : NoFlush s.calls
  proper : Proper active s.calls
  streams : ∀ e ∈ s.streams, After active s.calls e.1
  queue : ∀ e ∈ s.queue, After active s.calls e.1
  todo : Proper (After active s.calls) (direct s.todo : List (Call S D))

theorem noflush_snoc {l : List (Call S D)} {c : Call S D} (h : NoFlush l) (hc : c ≠ .flush) : NoFlush (l ++ [c]) := by
  intro x hx
  rcases List.mem_append.1 hx with h' | h'
  · exact h x h'
  · rw [List.mem_singleton.1 h']; exact hc

theorem after_snoc_data {active : ℤ → Prop} {l : List (Call S D)} {i : ℤ} {d : D} {j : ℤ} : After active (l ++ [.data i d]) j ↔ After active l j := by
  unfold After
  simp only [List.mem_append, List.mem_singleton]
  constructor
  · exact fun h => ⟨h.1, fun c hc => h.2 c (Or.inl hc)⟩
  · rintro ⟨h1, h2⟩
    refine ⟨h1, ?_⟩
    rintro c (hc | rfl)
    · exact h2 c hc
    · simp

theorem after_snoc_finish {active : ℤ → Prop} {l : List (Call S D)} {i : ℤ} {j : ℤ} : After active (l ++ [.finish i]) j ↔ After active l j ∧ j ≠ i := by
  unfold After
  simp only [List.mem_append, List.mem_singleton]
  constructor
  · rintro ⟨h1, h2⟩
    exact ⟨⟨h1, fun c hc => h2 c (Or.inl hc)⟩, fun h => h2 _ (Or.inr rfl) (by rw [h])⟩
  · rintro ⟨⟨h1, h2⟩, h3⟩
    refine ⟨h1, ?_⟩
    rintro c (hc | rfl)
    · exact h2 c hc
    · intro h; injection h with h; exact h3 h.symm

theorem orderly {active : ℤ → Prop} {prog : List (Op D)} (hp : Proper active (direct prog : List (Call S D))) {s : State S D} (h : Reach kind True prog s) : Orderly active s := by
  induction h with
  | init => exact ⟨by simp [NoFlush], trivial, by simp, by simp, proper_congr _ (fun j hj => ⟨hj, by simp⟩) hp⟩
  | @step s s' a _ hs hw ih =>
    have hw := hw trivial
    cases a with
    | client =>
      simp only [step] at hs
      split at hs
      · cases hs
      · rename_i i d l ht
        cases hs
        have := ih.todo
        rw [ht] at this
        refine ⟨ih.noflush, ih.proper, ?_, ih.queue, this.2⟩
        intro e he
        rcases List.mem_append.1 he with h | h
        · exact ih.streams e h
        · rw [List.mem_singleton.1 h]; exact this.1
      · rename_i i l ht
        cases hs
        have := ih.todo
        rw [ht] at this
        have hd : Drained i s := by simpa [Waits, ht] using hw
        refine ⟨noflush_snoc ih.noflush (by simp), proper_append _ _ ih.noflush ih.proper ⟨this.1, trivial⟩, ?_, ?_, ?_⟩
        · exact fun e he => after_snoc_finish.2 ⟨ih.streams e he, hd.1 e he⟩
        · exact fun e he => after_snoc_finish.2 ⟨ih.queue e he, hd.2 e he⟩
        · exact proper_congr _ (fun j hj => after_snoc_finish.2 hj) this.2
    | handle i m =>
      simp only [step] at hs
      split at hs
      · cases hs
      · rename_i e he
        cases hs
        refine ⟨ih.noflush, ih.proper, ?_, ?_, ih.todo⟩
        · exact fun x hx => ih.streams x (List.mem_of_mem_eraseP hx)
        · intro x hx
          rcases List.mem_append.1 hx with h | h
          · exact ih.queue x h
          · rw [List.mem_singleton.1 h]; exact ih.streams e (List.mem_of_find?_eq_some he)
    | slam =>
      simp only [step] at hs
      split at hs
      · cases hs
      · rename_i e q hq
        cases hs
        have he := ih.queue e (by rw [hq]; exact List.mem_cons_self)
        refine ⟨noflush_snoc ih.noflush (by simp), proper_append _ _ ih.noflush ih.proper ⟨he, trivial⟩, ?_, ?_, ?_⟩
        · exact fun x hx => after_snoc_data.2 (ih.streams x hx)
        · exact fun x hx => after_snoc_data.2 (ih.queue x (by rw [hq]; exact List.mem_cons_of_mem _ hx))
        · exact proper_congr _ (fun j hj => after_snoc_data.2 hj) ih.todo

/-- The trajectories finished are those the client finished. -/
theorem ended_final {careful : Prop} {prog : List (Op D)} {s : State S D} (h : Reach kind careful prog s) (j : ℤ) :
    Ended j (s.calls ++ direct s.todo) ↔ Ended j (direct prog : List (Call S D)) := by
  have happ : ∀ a b : List (Call S D), Ended j (a ++ b) ↔ Ended j a ∨ Ended j b := by
    intro a b
    induction a with
    | nil => simp [Ended]
    | cons c a ih => cases c <;> simp [Ended, ih, or_assoc]
  induction h with
  | init => exact Iff.rfl
  | @step s s' a _ hs _ ih =>
    refine Iff.trans ?_ ih
    cases a with
    | client =>
      simp only [step] at hs
      split at hs
      · cases hs
      · rename_i i d l ht
        cases hs
        simp only [ht, happ, direct, Ended]
      · rename_i i l ht
        cases hs
        simp only [ht, happ, direct, Ended, or_false, or_assoc]
    | handle i m =>
      simp only [step] at hs
      split at hs
      · cases hs
      · cases hs; rfl
    | slam =>
      simp only [step] at hs
      split at hs
      · cases hs
      · cases hs
        simp only [happ, Ended, or_false]

/-- **If the client waits, the server delivers exactly what would be delivered directly**, in whatever order the streams, handlers and the SLAM thread
proceed: the common collator calls back with the same data in the same order, the collator by trajectory with the same data for each trajectory. -/
theorem same_as_direct [OrderBot T] {kindOf : S → K} (hk : KindOk sensor kind kindOf) {js : List ℤ} {sens : ℤ → List S} (hs : Setup js sens) {prog : List (Op D)}
    (hp : Proper (· ∈ js) (direct prog : List (Call S D))) (ho : InOrder time sensor js sens (direct prog)) (hend : ∀ j ∈ js, Ended j (direct prog : List (Call S D)))
    {s : State S D} (h : Reach kind True prog s) (hf : Final s) {order : List ℤ → List ℤ} (hord : ∀ l, (order l).Perm l) :
    (∃ c c' out, (Shared.init : Shared S D T).run time sensor (session js sens (direct prog)) = some (c, out) ∧
      (Shared.init : Shared S D T).run time sensor (session js sens s.calls) = some (c', out)) ∧
    ∃ c c' out out', (Single.init : Single S D T).run time sensor order (session js sens (direct prog)) = some (c, out) ∧
      (Single.init : Single S D T).run time sensor order (session js sens s.calls) = some (c', out') ∧ ∀ j, delivered j out = delivered j out' := by
  have hp' := (orderly hp h).proper
  have hin : ∀ j x, received sensor j x s.calls = received sensor j x (direct prog) := all_arrive hk h hf
  have ho' : InOrder time sensor js sens s.calls := fun j hj x hx => by rw [hin]; exact ho j hj x hx
  have hend' : ∀ j ∈ js, Ended j s.calls := by
    intro j hj
    have := (ended_final h j).2 (hend j hj)
    rw [hf.1] at this
    simpa [direct] using this
  obtain ⟨q, q', out, h1, h2⟩ := OMQ.collation_deterministic (J := ℤ) (traj := traj) (time := time) (nodup_allKeys hs) (nodup_allKeys hs) (fun _ => Iff.rfl)
    (valid_session (sensor := sensor) hs hp) (valid_session (sensor := sensor) hs hp') (sorted_ops ho)
    (by
      intro k _
      obtain ⟨j, x, rfl, _⟩ := exists_key k
      rw [input_ops, input_ops, hin])
    (by
      intro k hk
      obtain ⟨j, x, rfl, _⟩ := exists_key k
      obtain ⟨e1, e2⟩ := mem_allKeys.1 hk
      exact (closes_ops e2 _).2 (hend j e1))
    (by
      intro k hk
      obtain ⟨j, x, rfl, _⟩ := exists_key k
      obtain ⟨e1, e2⟩ := mem_allKeys.1 hk
      exact (closes_ops e2 _).2 (hend' j e1))
  have r1 : ∃ c, (Shared.init : Shared S D T).run time sensor (session js sens (direct prog)) = some (c, out) := ⟨_, by rw [shared_session hs hp, h1]; rfl⟩
  have r2 : ∃ c, (Shared.init : Shared S D T).run time sensor (session js sens s.calls) = some (c, out) := ⟨_, by rw [shared_session hs hp', h2]; rfl⟩
  obtain ⟨c, r1⟩ := r1
  obtain ⟨c', r2⟩ := r2
  refine ⟨⟨c, c', out, r1, r2⟩, ?_⟩
  obtain ⟨c1, o1, c2, o2, a1, a2, a3⟩ := same_deliveries (time := time) (sensor := sensor) hord hs hp ho hend
  obtain ⟨c3, o3, c4, o4, b1, b2, b3⟩ := same_deliveries (time := time) (sensor := sensor) hord hs hp' ho' hend'
  rw [r1] at a1
  rw [r2] at b1
  cases a1
  cases b1
  exact ⟨c2, c4, o2, o4, a2, b2, fun j => by rw [← a3, ← b3]⟩

/-! ### What goes wrong if the client does not wait -/

/-- The kind of sensor of the examples. -/
def exKind (d : Nat × Nat) : Nat := d.2

/-- Runs steps. -/
def runActs : State Nat (Nat × Nat) → List (Act Nat) → Option (State Nat (Nat × Nat))
  | s, [] => some s
  | s, a :: l => (step exKind s a).bind fun s' => runActs s' l

theorem reach_runActs {prog : List (Op (Nat × Nat))} : ∀ {l : List (Act Nat)} {s s' : State Nat (Nat × Nat)}, Reach exKind False prog s → runActs s l = some s' → Reach exKind False prog s'
  | [], s, s', h, hr => by cases hr; exact h
  | a :: l, s, s', h, hr => by
    obtain ⟨s1, h1, h2⟩ := Option.bind_eq_some_iff.1 hr
    exact reach_runActs (h.step h1 False.elim) h2

/-- The client gives data of two sensors of trajectory 0 and finishes it. -/
def exProg : List (Op (Nat × Nat)) := [.data 0 (1, 0), .data 0 (2, 1), .finish 0]

/-- **The stub does not wait, and all data may be lost**: directly both items are delivered; through the server, with the request to finish the
trajectory overtaking the data in the streams, none is. -/
theorem overtaken : ∃ s : State Nat (Nat × Nat), Reach exKind False exProg s ∧ Final s ∧
    ((Collators.Shared.init : Collators.Shared Nat (Nat × Nat) Nat).run Collators.exTime Collators.exSensor (session [0] (fun _ => [0, 1]) (direct exProg))).map (fun r => r.2.map Prod.snd) = some [(1, 0), (2, 1)] ∧
    ((Collators.Shared.init : Collators.Shared Nat (Nat × Nat) Nat).run Collators.exTime Collators.exSensor (session [0] (fun _ => [0, 1]) s.calls)).map (fun r => r.2.map Prod.snd) = some [] := by
  refine ⟨_, reach_runActs (l := [.client, .client, .client, .handle 0 1, .handle 0 0, .slam, .slam]) .init rfl, ⟨rfl, rfl, rfl⟩, ?_, ?_⟩ <;> decide +kernel

/-- **A subscriber who comes late is never told that the trajectory is finished**: the thread of the stub that reads local SLAM results
(trajectory_builder_stub.cc 151-171) only ends then, and the destructor of the stub, called by `FinishTrajectory`, waits for it
(trajectory_builder_stub.cc 50-53). -/
theorem late_subscriber_never_told {E R O : Type} {as : List (Server.Act E R O)} {s : Server.State E R O} (h : Server.RExec as s) {t : ℤ} {c : ℕ} {A B : List (Server.Event E R O)}
    (hl : s.log = A ++ .subscribed c (.localSlam t) :: B) (ht : Server.Event.notifiedFinished t ∈ A) : Server.Msg.finished ∉ Server.inbox s c := by
  obtain ⟨h1, h2⟩ := Server.subscriber_receives_partial h c
  have hnd := (Server.announced_once (Server.rexec_exec h)).1 ▸ (Server.announced_once (Server.rexec_exec h)).2.1
  have hnd := (List.nodup_append.1 hnd).1
  by_cases hc : c < s.conns
  · obtain ⟨A', src, B', hl', hA, hB⟩ := h2 hc
    have hB' : ∀ e ∈ B', Server.about c e = false ∨ e = .closed c := by
      rcases hB with ⟨_, _, _, hb, _⟩ | ⟨_, B1, B2, rfl, hb1, hb2, _⟩
      · exact fun e he => Or.inl (hb e he)
      · intro e he
        rcases List.mem_append.1 he with he | he
        · exact Or.inl (hb1 e he)
        · rcases List.mem_cons.1 he with he | he
          · exact Or.inr he
          · exact Or.inl (hb2 e he)
    have key : A' = A ∧ src = .localSlam t ∧ B' = B := by
      rw [hl'] at hl
      rcases List.append_eq_append_iff.1 hl with ⟨M, hM, hM'⟩ | ⟨M, hM, hM'⟩
      · cases M with
        | nil =>
          simp only [List.nil_append, List.cons.injEq, Server.Event.subscribed.injEq, true_and] at hM'
          exact ⟨by simpa using hM.symm, hM'.1, hM'.2⟩
        | cons x M =>
          simp only [List.cons_append, List.cons.injEq] at hM'
          have : Server.Event.subscribed c (.localSlam t) ∈ B' := by rw [hM'.2]; simp
          rcases hB' _ this with h | h
          · simp [Server.about] at h
          · cases h
      · cases M with
        | nil =>
          simp only [List.nil_append, List.cons.injEq, Server.Event.subscribed.injEq, true_and] at hM'
          exact ⟨by simpa using hM, hM'.1.symm, hM'.2.symm⟩
        | cons x M =>
          simp only [List.cons_append, List.cons.injEq] at hM'
          have : Server.Event.subscribed c (.localSlam t) ∈ A' := by rw [hM, ← hM'.1]; simp
          have := hA _ this
          simp [Server.about] at this
    obtain ⟨rfl, rfl, rfl⟩ := key
    have hno : Server.Event.notifiedFinished t ∉ B' := by
      intro hb
      rw [Server.announced, hl, List.filterMap_append, List.filterMap_cons] at hnd
      refine (List.nodup_append.1 hnd).2.2 t (List.mem_filterMap.2 ⟨_, ht, rfl⟩) t ?_ rfl
      exact List.mem_filterMap.2 ⟨_, hb, rfl⟩
    have hrel : ∀ l : List (Server.Event E R O), (∀ e ∈ l, e ∈ B') → Server.Msg.finished ∉ l.filterMap (Server.relevant (.localSlam t)) := by
      intro l hlB hm
      obtain ⟨e, he, hr⟩ := List.mem_filterMap.1 hm
      cases e with
      | notifiedFinished u =>
        simp only [Server.relevant] at hr
        split at hr
        · rename_i hu; subst hu; exact hno (hlB _ he)
        · cases hr
      | published u r =>
        simp only [Server.relevant] at hr
        split at hr <;> cases hr
      | _ => simp [Server.relevant] at hr
    rcases hB with ⟨_, _, _, _, hi⟩ | ⟨_, B1, B2, rfl, _, _, hi⟩
    · rw [hi]; exact hrel _ (fun e he => he)
    · rw [hi]; exact hrel _ (fun e he => List.mem_append.2 (Or.inl he))
  · rw [(h1 (Nat.le_of_not_lt hc)).1]
    exact List.not_mem_nil

/-! ### Examples -/

/-- Two kinds of sensors overtake each other, and the client waits: the hypotheses hold and the same is delivered. -/
example : ∃ s : State Nat (Nat × Nat), Reach exKind True exProg s ∧ Final s ∧ s.calls = [.data 0 (2, 1), .data 0 (1, 0), .finish 0] ∧
    ((Collators.Shared.init : Collators.Shared Nat (Nat × Nat) Nat).run Collators.exTime Collators.exSensor (session [0] (fun _ => [0, 1]) s.calls)).map (fun r => r.2.map Prod.snd) = some [(1, 0), (2, 1)] := by
  have h : Reach exKind True exProg ({ todo := exProg } : State Nat (Nat × Nat)) := .init
  have h := h.step (a := .client) rfl (fun _ => trivial)
  have h := h.step (a := .client) rfl (fun _ => trivial)
  have h := h.step (a := .handle 0 1) rfl (fun _ => trivial)
  have h := h.step (a := .handle 0 0) rfl (fun _ => trivial)
  have h := h.step (a := .slam) rfl (fun _ => trivial)
  have h := h.step (a := .slam) rfl (fun _ => trivial)
  have h := h.step (a := .client) rfl (fun _ => by simp only [Waits, Drained]; decide)
  exact ⟨_, h, ⟨rfl, rfl, rfl⟩, rfl, by decide +kernel⟩

/-- The hypotheses of `same_as_direct` hold for it. -/
example : KindOk Collators.exSensor exKind id ∧ Setup [0] (fun _ : ℤ => [0, 1]) ∧ Proper (· ∈ [0]) (direct exProg : List (Call Nat (Nat × Nat))) ∧
    InOrder Collators.exTime Collators.exSensor [0] (fun _ => [0, 1]) (direct exProg) ∧ ∀ j ∈ [(0 : ℤ)], Ended j (direct exProg : List (Call Nat (Nat × Nat))) := by
  refine ⟨fun _ => rfl, ⟨by decide, by decide⟩, by simp [exProg, direct, Proper], ?_, by simp [exProg, direct, Ended]⟩
  intro j hj s hs
  simp only [List.mem_cons, List.not_mem_nil, or_false] at hj hs
  subst hj
  rcases hs with rfl | rfl <;> decide

/-- A server on which somebody subscribes late. -/
example : ∃ as : List Server.XAct, ∃ s : Server.XState, Server.RExec as s ∧ s.log = [.addedTrajectory "a" 0, .notifiedFinished 0] ++ .subscribed 0 (.localSlam 0) :: [] := by
  have h : (Server.run {} [.addTrajectory "a", .finish "a" 0 [] (fun _ => true), .notifyFinish (fun _ => true), .subscribeLocal 0]).any (fun s => decide (
      s.log = [.addedTrajectory "a" 0, .notifiedFinished 0] ++ .subscribed 0 (.localSlam 0) :: [])) = true := by decide +kernel
  obtain ⟨s, hs, h⟩ := (Option.any_eq_true _ _).1 h
  exact ⟨_, s, Server.rexec_of_run .nil hs, of_decide_eq_true h⟩

end Verif.SensorStreams
