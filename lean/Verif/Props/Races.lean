import Verif.Races
import Mathlib.Logic.Function.Basic
import Mathlib.Data.List.Basic

/-!
# Data races (C106)

A race is a state in which two threads are both about to access the same location, one of them writing.  The specification speaks of
accesses and of the functions that the threads of the application call; locks, the work queue and who is allowed what appear in the proofs
only.
-/

namespace Verif.Races

/-! ## Specification -/

/-- The next thing the thread does is to read or write `x`. -/
def Accesses (t : Thread) (w : Bool) (x : Loc) : Prop := t.wait = none ∧ ∃ k, t.stack = .run (.acc w x) :: k

/-- Two threads are about to access `x`, at least one of them writes. -/
def Race (s : State) (x : Loc) : Prop :=
  ∃ (i j : Nat) (ti tj : Thread) (wi wj : Bool), i ≠ j ∧ s.threads[i]? = some ti ∧ s.threads[j]? = some tj ∧
    Accesses ti wi x ∧ Accesses tj wj x ∧ (wi = true ∨ wj = true)

/-- States of executions where thread `i` of the application calls the functions `ops[i]` in any order. -/
def Reachable (ops : List (List Op)) (n : Nat) (s : State) : Prop := ∃ as, run (init ops n) as = some s

/-- The functions that give work to the work queue. -/
def GivesWork : Op → Bool
  | .addNode | .addItem | .deleteTrajectory | .freezeTrajectory | .addSubmapFromProto | .addNodeFromProto | .runFinalOptimization => true
  | _ => false

/-- Some thread calls `o`. -/
def Calls (ops : List (List Op)) (o : Op) : Prop := ∃ l ∈ ops, o ∈ l

/-- Who is to blame for a race at a location. -/
def Blamed (ops : List (List Op)) : Loc → Prop
  | .trajectoriesState => Calls ops .addSubmapFromProto ∨ Calls ops .isTrajectoryFinished
  | .optTrajectoryData => Calls ops .getTrajectoryData
  | .callback => Calls ops .setCallback
  | .activeSubmaps => Calls ops .insertRangeData
  | .constraints => ∃ (i j : Nat) (li lj : List Op), i ≠ j ∧ ops[i]? = some li ∧ ops[j]? = some lj ∧ .runFinalOptimization ∈ li ∧
      ∃ o ∈ lj, GivesWork o
  | _ => False

/-! ## What protects a location -/

/-- A mutex, or being the one thread that runs the work queue. -/
inductive Guard where
  | lock (l : Lock)
  | token

/-- How a location is protected.  With several guards one is enough to read and all are needed to write. -/
inductive Policy where
  | anything
  | readOnly
  | guarded (gs : List Guard)

/-- The policy that the code follows. -/
def base : Loc → Policy
  | .workQueue => .guarded [.lock .workQueue]
  | .builderState => .guarded [.lock .builder]
  | .landmarkNodes | .constraints | .optImu | .optOdometry | .optFixedFrame => .guarded [.lock .poseGraph, .token]
  | .optSubmaps | .optNodes | .optTrajectoryData | .optLandmarks | .optOptions | .builderSamplers => .guarded [.token]
  | .callback | .activeSubmaps => .readOnly
  | _ => .guarded [.lock .poseGraph]

open Classical in
/-- The policy with the exceptions. -/
noncomputable def policy (B : Loc → Prop) (x : Loc) : Policy := if B x then .anything else base x

/-- Who runs the work queue; the callback of `WaitForAllComputations` counts if no other thread gives work. -/
def exclusive (single : Bool) (m : Mode) : Prop := m = .worker ∨ (single = true ∧ m = .notifier)

/-- A guard is held. -/
def Has (single : Bool) (m : Mode) (h : List Lock) : Guard → Prop
  | .lock l => l ∈ h
  | .token => exclusive single m

/-- An access follows the policy. -/
def Allowed (single : Bool) (m : Mode) (h : List Lock) (w : Bool) : Policy → Prop
  | .anything => True
  | .readOnly => w = false
  | .guarded gs => if w then gs ≠ [] ∧ ∀ g ∈ gs, Has single m h g else ∃ g ∈ gs, Has single m h g

section
variable (P : Loc → Policy) (single adds waits : Bool)

/-- A program follows the policy and goes from mode `m` to mode `m'`. -/
def ok : Mode → List Lock → Prog → Mode → Prop
  | m, _, .skip, m' => m = m'
  | m, h, .seq p q, m' => ∃ k, ok m h p k ∧ ok k h q m'
  | m, h, .any f, m' => ∀ i, ok m h (f i) m'
  | m, h, .loop p, m' => m = m' ∧ ok m h p m
  | m, h, .lock l p, m' => ok m (l :: h) p m'
  | m, h, .await l, m' => m = m' ∧ h = [l]
  | m, h, .acc w x, m' => m = m' ∧ Allowed single m h w (P x)
  | m, _, .spawnWorker, m' => m = m' ∧ (m = .worker ∨ (m = .client ∧ adds = true))
  | m, _, .endWork, m' => m = .worker ∧ m' = .done
  | m, _, .whenNull, m' => m = .client ∧ waits = true ∧ m' = .null
  | m, _, .whenDone .handle, m' => m = .worker ∧ m' = .done
  | m, _, .whenDone .notify, m' => m = .null ∧ m' = .lent
  | m, _, .seen, m' => m = .lent ∧ m' = .client
  | m, _, .notify, m' => m = .notifier ∧ m' = .done

/-- The same for the frames of a thread. -/
def okStack : Mode → List Lock → List Frame → Prop
  | _, h, [] => h = []
  | m, h, .run p :: k => ∃ m', ok P single adds waits m h p m' ∧ okStack m' h k
  | m, h, .unlock l :: k => ∃ h', h = l :: h' ∧ okStack m h' k

/-- The same for a thread. -/
def Good (t : Thread) : Prop :=
  match t.wait with
  | none => okStack P single adds waits t.mode t.held t.stack
  | some l => t.held = [] ∧ okStack P single adds waits t.mode [l] t.stack

end

section
variable {P : Loc → Policy} {single adds waits : Bool}

/-- How a step changes the mode. -/
inductive Change (adds waits : Bool) (e : Env) : Mode → Mode → Effect → Prop
  | same {m} : Change adds waits e m m .none
  | spawn {m} : e.queue = false → (m = .worker ∨ (m = .client ∧ adds = true)) → Change adds waits e m m .spawn
  | endWork : Change adds waits e .worker .done .endWork
  | null : e.queue = false → waits = true → Change adds waits e .client .null .none
  | handle : e.pending = false → Change adds waits e .worker .done (.whenDone .handle)
  | lend : e.pending = false → Change adds waits e .null .lent (.whenDone .notify)
  | seen : e.seen = true → Change adds waits e .lent .client .none
  | notify : Change adds waits e .notifier .done .notify

theorem good_tstep {e : Env} {n : Nat} {t t' : Thread} {f : Effect} (g : Good P single adds waits t) (h : tstep e n t = some (t', f)) :
    Good P single adds waits t' ∧ Change adds waits e t.mode t'.mode f ∧ t'.owner = t.owner := by
  obtain ⟨held, wait, stack, owner, mode⟩ := t
  unfold tstep at h
  unfold Good at g
  cases wait with
  | some l =>
    simp only at h g
    split at h
    · cases h
      obtain ⟨rfl, g⟩ := g
      exact ⟨g, .same, rfl⟩
    · cases h
  | none =>
    simp only at h g
    cases stack with
    | nil => cases h
    | cons fr k =>
      cases fr with
      | unlock l =>
        cases h
        obtain ⟨h', rfl, g⟩ := g
        refine ⟨?_, .same, rfl⟩
        unfold Good
        simp only [List.erase_cons_head]
        exact g
      | run p =>
        simp only at h
        obtain ⟨m', g, gk⟩ := g
        cases p with
        | skip => cases h; cases g; exact ⟨gk, .same, rfl⟩
        | seq p q =>
          cases h
          obtain ⟨a, g1, g2⟩ := g
          exact ⟨⟨a, g1, m', g2, gk⟩, .same, rfl⟩
        | any q => cases h; exact ⟨⟨m', g n, gk⟩, .same, rfl⟩
        | loop p =>
          cases h
          obtain ⟨rfl, g⟩ := g
          refine ⟨?_, .same, rfl⟩
          unfold Good
          simp only
          split
          · exact gk
          · exact ⟨_, g, _, ⟨rfl, g⟩, gk⟩
        | lock l p =>
          simp only [pstep] at h
          split at h
          · cases h
            exact ⟨⟨m', g, _, rfl, gk⟩, .same, rfl⟩
          · cases h
        | await l =>
          cases h
          obtain ⟨rfl, g⟩ := g
          subst g
          refine ⟨?_, .same, rfl⟩
          unfold Good
          simp only [List.erase_cons_head]
          exact ⟨trivial, gk⟩
        | acc w x =>
          cases h
          obtain ⟨rfl, g⟩ := g
          exact ⟨gk, .same, rfl⟩
        | spawnWorker =>
          cases h
          obtain ⟨rfl, g⟩ := g
          refine ⟨gk, ?_, rfl⟩
          cases hq : e.queue
          · exact .spawn hq g
          · exact .same
        | endWork =>
          cases h
          obtain ⟨rfl, rfl⟩ := g
          exact ⟨gk, .endWork, rfl⟩
        | whenNull =>
          simp only [pstep] at h
          split at h
          · cases h
          · rename_i hq
            cases h
            obtain ⟨rfl, hw, rfl⟩ := g
            exact ⟨gk, .null (by simpa using hq) hw, rfl⟩
        | whenDone c =>
          simp only [pstep] at h
          split at h
          · cases h
          · rename_i hq
            have hq' : e.pending = false := by simpa using hq
            cases h
            cases c
            · obtain ⟨rfl, rfl⟩ := g
              exact ⟨gk, .handle hq', rfl⟩
            · obtain ⟨rfl, rfl⟩ := g
              exact ⟨gk, .lend hq', rfl⟩
        | seen =>
          simp only [pstep] at h
          split at h
          · rename_i hq
            cases h
            obtain ⟨rfl, rfl⟩ := g
            exact ⟨gk, .seen hq, rfl⟩
          · cases h
        | notify =>
          cases h
          obtain ⟨rfl, rfl⟩ := g
          exact ⟨gk, .notify, rfl⟩

/-- A thread gets a lock only if nobody has it. -/
theorem held_tstep {e : Env} {n : Nat} {t t' : Thread} {f : Effect} (h : tstep e n t = some (t', f)) {l : Lock} (hl : l ∈ t'.held) :
    l ∈ t.held ∨ e.free l = true := by
  obtain ⟨held, wait, stack, owner, mode⟩ := t
  unfold tstep at h
  cases wait with
  | some l' =>
    simp only at h
    split at h
    · rename_i hf
      cases h
      rcases List.mem_cons.1 hl with rfl | hl
      · exact .inr hf
      · exact .inl hl
    · cases h
  | none =>
    simp only at h
    cases stack with
    | nil => cases h
    | cons fr k =>
      cases fr with
      | unlock l' => cases h; exact .inl (List.mem_of_mem_erase hl)
      | run p =>
        cases p with
        | lock l' p =>
          simp only [pstep] at h
          split at h
          · rename_i hf
            cases h
            rcases List.mem_cons.1 hl with rfl | hl
            · exact .inr hf
            · exact .inl hl
          · cases h
        | await l' => cases h; exact .inl (List.mem_of_mem_erase hl)
        | whenNull => simp only [pstep] at h; split at h <;> cases h; exact .inl hl
        | whenDone c => simp only [pstep] at h; split at h <;> cases h; exact .inl hl
        | seen => simp only [pstep] at h; split at h <;> cases h; exact .inl hl
        | _ => cases h; exact .inl hl

end

/-! ## Who runs the work queue -/

/-- The modes of the threads. -/
def State.modes (s : State) (i : Nat) : Option (Mode × Nat) := (s.threads[i]?).map fun t => (t.mode, t.owner)

/-- At most one thread runs the work queue, and only while the queue exists; if only one thread gives work and waits, the callback that
notifies it runs while there is no queue. -/
structure Token (single : Bool) (waits : Nat → Bool) (M : Nat → Option (Mode × Nat)) (q : Bool) (slot : Option (Callback × Nat))
    (flags : Nat → Bool) : Prop where
  worker : ∀ i o, M i = some (.worker, o) → q = true ∧ (∀ d, slot ≠ some (.handle, d)) ∧ ∀ j o', M j = some (.worker, o') → j = i
  pending : ∀ d, slot = some (.handle, d) → q = true
  waiting : single = true → ∀ i m o, M i = some (m, o) → (m = .null ∨ m = .lent) → waits i = true ∧ q = false
  slotNotify : single = true → ∀ d, slot = some (.notify, d) → (∃ o, M d = some (.lent, o)) ∧ flags d = false
  notifier : single = true → ∀ i d, M i = some (.notifier, d) → (∃ o, M d = some (.lent, o)) ∧ flags d = false ∧
    (∀ d', slot ≠ some (.notify, d')) ∧ ∀ j d', M j = some (.notifier, d') → j = i

section
variable {single : Bool} {adds waits : Nat → Bool} {M : Nat → Option (Mode × Nat)} {q : Bool} {slot : Option (Callback × Nat)}
  {flags : Nat → Bool} {i o : Nat} {m m' : Mode} {free : Lock → Bool}

theorem token_none (T : Token single waits M q slot flags) (hi : M i = some (m, o))
    (c : Change (adds i) (waits i) ⟨free, q, slot.isSome, flags i⟩ m m' .none) :
    Token single waits (Function.update M i (some (m', o))) q slot flags := by
  obtain ⟨T1, T2, T3, T4, T5⟩ := T
  cases c with
  | same =>
    have : Function.update M i (some (m, o)) = M := by rw [← hi]; exact Function.update_eq_self i M
    rw [this]
    exact ⟨T1, T2, T3, T4, T5⟩
  | null hq hw => constructor <;> grind [Function.update_apply]
  | seen hs => constructor <;> grind [Function.update_apply]

theorem token_spawn (H : single = true → ∀ i j, waits i = true → adds j = true → i = j) (T : Token single waits M q slot flags)
    (hi : M i = some (m, o)) {n : Nat} (hn : M n = none)
    (c : Change (adds i) (waits i) ⟨free, q, slot.isSome, flags i⟩ m m' .spawn) :
    Token single waits (Function.update (Function.update M i (some (m', o))) n (some (.worker, 0))) true slot flags := by
  obtain ⟨T1, T2, T3, T4, T5⟩ := T
  cases c with
  | spawn hq ha =>
    have e : Function.update M i (some (m, o)) = M := by rw [← hi]; exact Function.update_eq_self i M
    rw [e]
    constructor <;> grind [Function.update_apply]

theorem token_endWork (T : Token single waits M q slot flags) (hi : M i = some (m, o))
    (c : Change (adds i) (waits i) ⟨free, q, slot.isSome, flags i⟩ m m' .endWork) :
    Token single waits (Function.update M i (some (m', o))) false slot flags := by
  obtain ⟨T1, T2, T3, T4, T5⟩ := T
  cases c with
  | endWork => constructor <;> grind [Function.update_apply]

theorem token_whenDone (H : single = true → ∀ i j, waits i = true → waits j = true → i = j) (T : Token single waits M q slot flags)
    (hi : M i = some (m, o)) {b : Callback} (c : Change (adds i) (waits i) ⟨free, q, slot.isSome, flags i⟩ m m' (.whenDone b)) :
    Token single waits (Function.update M i (some (m', o))) q (some (b, i)) (Function.update flags i false) := by
  obtain ⟨T1, T2, T3, T4, T5⟩ := T
  cases c with
  | handle hp => constructor <;> grind [Function.update_apply]
  | lend hp =>
    constructor
    case slotNotify =>
      intro h d e
      cases e
      exact ⟨⟨o, Function.update_self ..⟩, Function.update_self ..⟩
    all_goals grind [Function.update_apply]

theorem token_notify (T : Token single waits M q slot flags) (hi : M i = some (m, o))
    (c : Change (adds i) (waits i) ⟨free, q, slot.isSome, flags i⟩ m m' .notify) :
    Token single waits (Function.update M i (some (m', o))) q slot (Function.update flags o true) := by
  obtain ⟨T1, T2, T3, T4, T5⟩ := T
  cases c with
  | notify => constructor <;> grind [Function.update_apply]

theorem token_fire (T : Token single waits M q slot flags) {n d : Nat} (hn : M n = none) {b : Callback} (hs : slot = some (b, d)) :
    Token single waits (Function.update M n (some (modeOf b, d))) q none flags := by
  obtain ⟨T1, T2, T3, T4, T5⟩ := T
  cases b <;> simp only [modeOf] <;> constructor <;> grind [Function.update_apply]

end

/-! ## The invariant -/

theorem modes_set {l : List Thread} {i : Nat} {t t' : Thread} (h : l[i]? = some t) :
    (fun j => ((l.set i t')[j]?).map fun t => (t.mode, t.owner)) =
      Function.update (fun j => (l[j]?).map fun t => (t.mode, t.owner)) i (some (t'.mode, t'.owner)) := by
  funext j
  have hl : i < l.length := (List.getElem?_eq_some_iff.1 h).1
  rw [Function.update_apply, List.getElem?_set]
  by_cases e : i = j
  · subst e; simp [hl]
  · rw [if_neg e, if_neg (Ne.symm e)]

theorem modes_append (l : List Thread) (t : Thread) :
    (fun j => ((l ++ [t])[j]?).map fun t => (t.mode, t.owner)) =
      Function.update (fun j => (l[j]?).map fun t => (t.mode, t.owner)) l.length (some (t.mode, t.owner)) := by
  funext j
  rw [Function.update_apply, List.getElem?_append]
  by_cases e : j < l.length
  · rw [if_pos e, if_neg (by omega)]
  · rw [if_neg e]
    by_cases e' : j = l.length
    · subst e'; simp
    · rw [if_neg e', List.getElem?_eq_none (by simp; omega), List.getElem?_eq_none (by omega)]

/-- The invariant. -/
structure Inv (P : Loc → Policy) (single : Bool) (adds waits : Nat → Bool) (s : State) : Prop where
  locks : ∀ (i j : Nat) (ti tj : Thread) (l : Lock), s.threads[i]? = some ti → s.threads[j]? = some tj → l ∈ ti.held → l ∈ tj.held → i = j
  good : ∀ (i : Nat) (t : Thread), s.threads[i]? = some t → Good P single (adds i) (waits i) t
  token : Token single waits s.modes s.queue s.slot s.flags

theorem getElem?_set_some {l : List Thread} {i j : Nat} {t u : Thread} (h : (l.set i t)[j]? = some u) : (j = i ∧ u = t) ∨ (j ≠ i ∧ l[j]? = some u) := by
  rw [List.getElem?_set] at h
  split at h
  · rename_i e
    split at h
    · cases h; exact .inl ⟨e.symm, rfl⟩
    · cases h
  · rename_i e
    exact .inr ⟨fun e' => e e'.symm, h⟩

theorem getElem?_concat_some {l : List Thread} {j : Nat} {t u : Thread} (h : (l ++ [t])[j]? = some u) :
    (j = l.length ∧ u = t) ∨ (j < l.length ∧ l[j]? = some u) := by
  rw [List.getElem?_append] at h
  split at h
  · rename_i e; exact .inr ⟨e, h⟩
  · rename_i e
    rw [List.getElem?_singleton] at h
    split at h
    · cases h; exact .inl ⟨by omega, rfl⟩
    · cases h

/-- Exclusive use of locks, after a thread was changed. -/
def LocksApart (l : List Thread) : Prop :=
  ∀ (i j : Nat) (ti tj : Thread) (k : Lock), l[i]? = some ti → l[j]? = some tj → k ∈ ti.held → k ∈ tj.held → i = j

theorem locks_set {l : List Thread} {i : Nat} {t t' : Thread} (h : LocksApart l) (hi : l[i]? = some t)
    (hl : ∀ k ∈ t'.held, k ∈ t.held ∨ ∀ u ∈ l, k ∉ u.held) : LocksApart (l.set i t') := by
  intro a b ta tb k ha hb ka kb
  rcases getElem?_set_some ha with ⟨ea, fa⟩ | ⟨na, ha'⟩ <;> rcases getElem?_set_some hb with ⟨eb, fb⟩ | ⟨nb, hb'⟩
  · rw [ea, eb]
  · rw [fa] at ka
    rcases hl k ka with hk | hk
    · rw [ea]; exact h _ _ _ _ k hi hb' hk kb
    · exact absurd kb (hk _ (List.mem_of_getElem? hb'))
  · rw [fb] at kb
    rcases hl k kb with hk | hk
    · rw [eb]; exact h _ _ _ _ k ha' hi ka hk
    · exact absurd ka (hk _ (List.mem_of_getElem? ha'))
  · exact h _ _ _ _ k ha' hb' ka kb

theorem locks_append {l : List Thread} {t : Thread} (h : LocksApart l) (ht : t.held = []) : LocksApart (l ++ [t]) := by
  intro a b ta tb k ha hb ka kb
  rcases getElem?_concat_some ha with ⟨rfl, rfl⟩ | ⟨na, ha⟩ <;> rcases getElem?_concat_some hb with ⟨rfl, rfl⟩ | ⟨nb, hb⟩
  · rfl
  · rw [ht] at ka; cases ka
  · rw [ht] at kb; cases kb
  · exact h _ _ _ _ k ha hb ka kb

/-- The programs of the threads that are started follow the policy. -/
structure Checked (P : Loc → Policy) (single : Bool) : Prop where
  drain : ok P single false false .worker [] drainWorkQueue .done
  code : ∀ c, ok P single false false (modeOf c) [] (code c) .done

theorem ok_mono {P : Loc → Policy} {single adds waits : Bool} : ∀ {p : Prog} {m m' : Mode} {h : List Lock},
    ok P single false false m h p m' → ok P single adds waits m h p m'
  | .skip, _, _, _, g => g
  | .seq _ _, _, _, _, ⟨k, g1, g2⟩ => ⟨k, ok_mono g1, ok_mono g2⟩
  | .any _, _, _, _, g => fun i => ok_mono (g i)
  | .loop _, _, _, _, ⟨e, g⟩ => ⟨e, ok_mono g⟩
  | .lock _ _, _, _, _, g => ok_mono (p := _) (h := _ :: _) g
  | .await _, _, _, _, g => g
  | .acc _ _, _, _, _, g => g
  | .spawnWorker, _, _, _, ⟨e, g⟩ => ⟨e, g.elim .inl fun g => by cases g.2⟩
  | .endWork, _, _, _, g => g
  | .whenNull, _, _, _, g => by cases g.2.1
  | .whenDone .handle, _, _, _, g => g
  | .whenDone .notify, _, _, _, g => g
  | .seen, _, _, _, g => g
  | .notify, _, _, _, g => g

theorem good_start {P : Loc → Policy} {single adds waits : Bool} {p : Prog} {o : Nat} {m m' : Mode}
    (h : ok P single adds waits m [] p m') : Good P single adds waits (start p o m) := ⟨m', h, rfl⟩

section
variable {P : Loc → Policy} {single : Bool} {adds waits : Nat → Bool}

theorem inv_step (C : Checked P single) (H : single = true → ∀ i j, waits i = true → adds j = true → i = j)
    (HW : ∀ i, waits i = true → adds i = true) {s s' : State} {a : Act} (I : Inv P single adds waits s) (h : step s a = some s') :
    Inv P single adds waits s' := by
  have H' : single = true → ∀ i j, waits i = true → waits j = true → i = j := fun hs i j hi hj => H hs i j hi (HW j hj)
  cases a with
  | fire =>
    unfold step at h
    simp only at h
    split at h
    · cases h
    · rename_i c d hs
      cases h
      have hn : s.modes s.threads.length = none := by unfold State.modes; rw [List.getElem?_eq_none (Nat.le_refl _)]; rfl
      refine ⟨locks_append I.locks rfl, ?_, ?_⟩
      · intro i t hi
        rcases getElem?_concat_some hi with ⟨rfl, rfl⟩ | ⟨_, hi⟩
        · exact good_start (ok_mono (C.code c))
        · exact I.good i t hi
      · have := token_fire I.token hn hs
        unfold State.modes
        rw [modes_append]
        exact this
  | thread i n =>
    unfold step at h
    simp only at h
    split at h
    · cases h
    · rename_i t ht
      split at h
      · cases h
      · rename_i t' f hf
        cases h
        obtain ⟨g, ch, ow⟩ := good_tstep (I.good i t ht) hf
        have hm : s.modes i = some (t.mode, t.owner) := by unfold State.modes; rw [ht]; rfl
        have hset : LocksApart (s.threads.set i t') := by
          refine locks_set I.locks ht fun k hk => (held_tstep hf hk).imp id fun hfree u hu => ?_
          have : s.free k = true := hfree
          unfold State.free at this
          rw [List.all_eq_true] at this
          simpa using this u hu
        have hgood : ∀ (j : Nat) (u : Thread), (s.threads.set i t')[j]? = some u → Good P single (adds j) (waits j) u := by
          intro j u hj
          rcases getElem?_set_some hj with ⟨rfl, rfl⟩ | ⟨_, hj⟩
          · exact g
          · exact I.good j u hj
        have hmodes : (fun j => ((s.threads.set i t')[j]?).map fun t => (t.mode, t.owner)) =
            Function.update s.modes i (some (t'.mode, t.owner)) := by
          rw [modes_set ht, ow]; rfl
        cases f with
        | none =>
          refine ⟨hset, hgood, ?_⟩
          have := token_none I.token hm ch
          rw [← hmodes] at this
          exact this
        | spawn =>
          have hlen : (s.threads.set i t').length = s.threads.length := List.length_set ..
          have hn : s.modes s.threads.length = none := by unfold State.modes; rw [List.getElem?_eq_none (Nat.le_refl _)]; rfl
          refine ⟨locks_append hset rfl, ?_, ?_⟩
          · intro j u hj
            rcases getElem?_concat_some hj with ⟨rfl, rfl⟩ | ⟨_, hj⟩
            · exact good_start (ok_mono C.drain)
            · exact hgood j u hj
          · have := token_spawn H I.token hm hn ch
            rw [← hmodes] at this
            show Token single waits (fun j => ((s.threads.set i t' ++ [start drainWorkQueue 0 .worker])[j]?).map _) _ _ _
            rw [modes_append, hlen]
            exact this
        | endWork =>
          refine ⟨hset, hgood, ?_⟩
          have := token_endWork I.token hm ch
          rw [← hmodes] at this
          exact this
        | whenDone c =>
          refine ⟨hset, hgood, ?_⟩
          have := token_whenDone H' I.token hm ch
          rw [← hmodes] at this
          exact this
        | notify =>
          refine ⟨hset, hgood, ?_⟩
          have := token_notify I.token hm ch
          rw [← hmodes, ← ow] at this
          exact this

theorem inv_run (C : Checked P single) (H : single = true → ∀ i j, waits i = true → adds j = true → i = j)
    (HW : ∀ i, waits i = true → adds i = true) : ∀ {as : List Act} {s s' : State}, Inv P single adds waits s → run s as = some s' →
    Inv P single adds waits s'
  | [], _, _, I, h => by cases h; exact I
  | a :: as, s, s', I, h => by
    unfold run at h
    split at h
    · cases h
    · rename_i s1 h1
      exact inv_run C H HW (inv_step C H HW I h1) h

theorem exclusive_unique {s : State} (T : Token single waits s.modes s.queue s.slot s.flags) {i j : Nat} {ti tj : Thread}
    (hi : s.threads[i]? = some ti) (hj : s.threads[j]? = some tj) (ei : exclusive single ti.mode) (ej : exclusive single tj.mode) : i = j := by
  have mi : s.modes i = some (ti.mode, ti.owner) := by unfold State.modes; rw [hi]; rfl
  have mj : s.modes j = some (tj.mode, tj.owner) := by unfold State.modes; rw [hj]; rfl
  obtain ⟨T1, T2, T3, T4, T5⟩ := T
  unfold exclusive at ei ej
  rcases ei with e | ⟨hs, e⟩ <;> rcases ej with e' | ⟨hs', e'⟩ <;> rw [e] at mi <;> rw [e'] at mj
  · exact ((T1 i _ mi).2.2 j _ mj).symm
  · obtain ⟨⟨o, ho⟩, _⟩ := T5 hs' j _ mj
    have := (T3 hs' _ _ _ ho (.inr rfl)).2
    rw [(T1 i _ mi).1] at this
    cases this
  · obtain ⟨⟨o, ho⟩, _⟩ := T5 hs i _ mi
    have := (T3 hs _ _ _ ho (.inr rfl)).2
    rw [(T1 j _ mj).1] at this
    cases this
  · exact ((T5 hs i _ mi).2.2.2 j _ mj).symm

theorem accesses_allowed {adds waits : Bool} {t : Thread} {w : Bool} {x : Loc} (g : Good P single adds waits t) (h : Accesses t w x) :
    Allowed single t.mode t.held w (P x) := by
  obtain ⟨hw, k, hk⟩ := h
  unfold Good at g
  rw [hw] at g
  simp only at g
  rw [hk] at g
  obtain ⟨m', g, _⟩ := g
  exact g.2

theorem has_unique {s : State} (I : Inv P single adds waits s) {i j : Nat} {ti tj : Thread} (hi : s.threads[i]? = some ti)
    (hj : s.threads[j]? = some tj) {g : Guard} (gi : Has single ti.mode ti.held g) (gj : Has single tj.mode tj.held g) : i = j := by
  cases g with
  | lock l => exact I.locks i j ti tj l hi hj gi gj
  | token => exact exclusive_unique I.token hi hj gi gj

/-- Under the invariant there are races only where anything is allowed. -/
theorem no_race {s : State} (I : Inv P single adds waits s) {x : Loc} (h : Race s x) : P x = .anything := by
  have key : ∀ (i j : Nat) (ti tj : Thread) (wj : Bool), i ≠ j → s.threads[i]? = some ti → s.threads[j]? = some tj → Accesses ti true x →
      Accesses tj wj x → P x = .anything := by
    intro i j ti tj wj hne hi hj ai aj
    have p1 := accesses_allowed (I.good i ti hi) ai
    have p2 := accesses_allowed (I.good j tj hj) aj
    cases hP : P x with
    | anything => rfl
    | readOnly => rw [hP] at p1; cases p1
    | guarded gs =>
      rw [hP] at p1 p2
      simp only [Allowed, if_true] at p1
      have : ∃ g ∈ gs, Has single tj.mode tj.held g := by
        cases wj
        · simpa [Allowed] using p2
        · simp only [Allowed, if_true] at p2
          obtain ⟨g, hg⟩ := List.exists_mem_of_ne_nil gs p2.1
          exact ⟨g, hg, p2.2 g hg⟩
      obtain ⟨g, hg, hj'⟩ := this
      exact absurd (has_unique I hi hj (p1.2 g hg) hj') hne
  obtain ⟨i, j, ti, tj, wi, wj, hne, hi, hj, ai, aj, hw⟩ := h
  rcases hw with rfl | rfl
  · exact key i j ti tj wj hne hi hj ai aj
  · exact key j i tj ti wi (Ne.symm hne) hj hi aj ai

end

/-! ## The programs follow the policy -/

section
variable {P : Loc → Policy} {single adds waits : Bool} {m m' : Mode} {h : List Lock}

theorem ok_oneOf {ps : List Prog} (hm : ps = [] → m = m') (hp : ∀ p ∈ ps, ok P single adds waits m h p m') :
    ok P single adds waits m h (oneOf ps) m' := by
  intro i
  beta_reduce
  cases ps with
  | nil => exact hm rfl
  | cons p ps =>
    have hi : i % (p :: ps).length < (p :: ps).length := Nat.mod_lt _ (by simp)
    rw [List.getD_eq_getElem?_getD, List.getElem?_eq_getElem hi]
    exact hp _ (List.getElem_mem hi)

theorem ok_opt {p : Prog} (hp : ok P single adds waits m h p m) : ok P single adds waits m h (opt p) m := by
  refine ok_oneOf (fun _ => rfl) ?_
  intro q hq
  rcases List.mem_cons.1 hq with rfl | hq
  · exact hp
  · rw [List.mem_singleton.1 hq]; rfl

theorem ok_touch {rs ws : List Loc} (hr : ∀ x ∈ rs, Allowed single m h false (P x)) (hw : ∀ x ∈ ws, Allowed single m h true (P x)) :
    ok P single adds waits m h (touch rs ws) m := by
  refine ⟨rfl, ok_oneOf (fun _ => rfl) ?_⟩
  intro p hp
  rcases List.mem_append.1 hp with hp | hp
  · obtain ⟨x, hx, rfl⟩ := List.mem_map.1 hp
    exact ⟨rfl, hr x hx⟩
  · obtain ⟨x, hx, rfl⟩ := List.mem_map.1 hp
    exact ⟨rfl, hw x hx⟩

theorem ok_seq (k : Mode) {p q : Prog} (hp : ok P single adds waits m h p k) (hq : ok P single adds waits k h q m') :
    ok P single adds waits m h (.seq p q) m' := ⟨k, hp, hq⟩

theorem ok_nil : ok P single adds waits m h (block []) m := rfl

theorem ok_cons (k : Mode) {p : Prog} {ps : List Prog} (hp : ok P single adds waits m h p k) (hq : ok P single adds waits k h (block ps) m') :
    ok P single adds waits m h (block (p :: ps)) m' := ⟨k, hp, hq⟩

theorem ok_loop {p : Prog} (hp : ok P single adds waits m h p m) : ok P single adds waits m h (.loop p) m := ⟨rfl, hp⟩

end

theorem allowed_policy {B : Loc → Prop} {single : Bool} {m : Mode} {h : List Lock} {w : Bool} {x : Loc} :
    Allowed single m h w (policy B x) ↔ B x ∨ Allowed single m h w (base x) := by
  unfold policy
  split
  · rename_i hB; simp [hB, Allowed]
  · rename_i hB; simp [hB]

theorem ok_touch' {B : Loc → Prop} {single adds waits : Bool} {m : Mode} {h : List Lock} {rs ws : List Loc}
    (hr : ∀ x ∈ rs, B x ∨ Allowed single m h false (base x)) (hw : ∀ x ∈ ws, B x ∨ Allowed single m h true (base x)) :
    ok (policy B) single adds waits m h (touch rs ws) m :=
  ok_touch (fun x hx => allowed_policy.2 (hr x hx)) (fun x hx => allowed_policy.2 (hw x hx))

/-- Checks the accesses of a section. -/
macro "touches" : tactic => `(tactic| (apply ok_touch' <;> simp [base, Allowed, Has, exclusive, localToGlobalReads,
  trajectoryWrites, Item.reads, Item.writes, *]))

section
variable {B : Loc → Prop} {single adds waits : Bool} {h : List Lock}

theorem ok_addWorkItem {m : Mode} (hm : m = .worker ∨ (m = .client ∧ adds = true)) : ok (policy B) single adds waits m h addWorkItem m := by
  refine ok_cons m (by touches) (ok_cons m ⟨rfl, hm⟩ (ok_cons m (by touches) ok_nil))

theorem ok_maybeAddConstraint : ok (policy B) single adds waits .worker h maybeAddConstraint .worker :=
  ok_seq .worker (ok_opt (by touches)) (ok_opt (show ok _ _ _ _ _ (_ :: _) _ _ by touches))

theorem ok_builder {m : Mode} {rs : List Loc} (hr : ∀ x ∈ rs, x = .builderState) :
    ok (policy B) single adds waits m h (.lock .builder (touch rs [.builderState])) m := by
  refine ok_touch' (h := _ :: _) ?_ ?_
  · intro x hx; rw [hr x hx]; simp [base, Allowed, Has]
  · intro x hx; rw [List.mem_singleton.1 hx]; simp [base, Allowed, Has]

theorem ok_computeConstraint : ok (policy B) single adds waits .worker h computeConstraint .worker :=
  ok_cons .worker (show ok _ _ _ _ _ (_ :: _) _ _ by touches) (ok_cons .worker (by touches) (ok_cons .worker ok_maybeAddConstraint ok_nil))

theorem ok_computeConstraintsForNode : ok (policy B) single adds waits .worker h computeConstraintsForNode .worker :=
  ok_cons .worker (show ok _ _ _ _ _ (_ :: _) _ _ by touches) (ok_cons .worker (ok_loop ok_computeConstraint)
    (ok_cons .worker (ok_loop (ok_seq .worker (by touches) ok_computeConstraint)) (ok_cons .worker (ok_builder (by simp))
      (ok_cons .worker (show ok _ _ _ _ _ (_ :: _) _ _ by touches) ok_nil))))

theorem ok_item (i : Item) : ok (policy B) single adds waits .worker h (item i) .worker := by
  show ok _ _ _ _ _ (_ :: _) _ _
  cases i <;> touches

theorem ok_anyItem : ok (policy B) single adds waits .worker h anyItem .worker := by
  refine ok_oneOf (fun _ => rfl) ?_
  intro p hp
  simp only [List.mem_cons, List.not_mem_nil, or_false] at hp
  rcases hp with rfl | hp
  · exact ok_computeConstraintsForNode
  · rcases hp with rfl | rfl | rfl | rfl | rfl | rfl | rfl | rfl | rfl | rfl | rfl | rfl | rfl | rfl | rfl <;> exact ok_item _

theorem ok_drainWorkQueue : ok (policy B) single adds waits .worker h drainWorkQueue .done := by
  refine ok_cons .worker (ok_loop (ok_seq .worker (show ok _ _ _ _ _ (_ :: _) _ _ by touches) ok_anyItem)) (ok_cons .done ?_ ok_nil)
  refine ok_oneOf (by simp) ?_
  intro p hp
  simp only [List.mem_cons, List.not_mem_nil, or_false] at hp
  rcases hp with rfl | rfl
  · exact ok_seq (h := _ :: _) .worker (by touches) ⟨rfl, rfl⟩
  · exact ok_seq (h := _ :: _) .worker (by touches) ⟨rfl, rfl⟩

theorem ok_runOptimization : ok (policy B) single adds waits .worker h runOptimization .worker :=
  ok_seq .worker (by touches) (ok_opt (ok_cons .worker (show ok _ _ _ _ _ (_ :: _) _ _ by touches) (ok_cons .worker (by unfold solve; touches)
    (ok_cons .worker (show ok _ _ _ _ _ (_ :: _) _ _ by touches) ok_nil))))

theorem ok_trim : ok (policy B) single adds waits .worker (.poseGraph :: h) trim .worker := by
  refine ok_loop (ok_oneOf (by simp) ?_)
  intro p hp
  simp only [List.mem_cons, List.not_mem_nil, or_false] at hp
  rcases hp with rfl | rfl
  · touches
  · show ok _ _ _ _ _ (_ :: _) _ _
    touches

/-- What a call needs. -/
structure CallOk (B : Loc → Prop) (adds waits : Bool) (o : Op) : Prop where
  adds : GivesWork o = true → adds = true
  waits : o = .runFinalOptimization → waits = true
  state : o = .addSubmapFromProto ∨ o = .isTrajectoryFinished → B .trajectoriesState
  data : o = .getTrajectoryData → B .optTrajectoryData
  callback : o = .setCallback → B .callback
  submaps : o = .insertRangeData → B .activeSubmaps

theorem ok_getNumFinishedNodes {m : Mode} : ok (policy B) single adds waits m h getNumFinishedNodes m := by
  show ok _ _ _ _ _ (_ :: _) _ _
  touches

theorem ok_waitForAllComputations (hw : waits = true) : ok (policy B) single adds waits .client [] waitForAllComputations .client := by
  refine ok_cons .client (show ok _ _ _ _ _ (_ :: _) _ _ by touches) (ok_cons .client ok_getNumFinishedNodes (ok_cons .null ?_
    (ok_cons .client ?_ ok_nil)))
  · exact ok_cons (h := _ :: _) .client (ok_loop (ok_seq .client ⟨rfl, rfl⟩ (ok_opt ok_getNumFinishedNodes)))
      (ok_cons .client (by touches) (ok_cons .null ⟨rfl, hw, rfl⟩ ok_nil))
  · exact ok_cons (h := _ :: _) .null (by touches) (ok_cons .lent (ok_seq (h := _ :: _) .null (by touches) ⟨rfl, rfl⟩)
      (ok_cons .lent (ok_loop (ok_seq .lent ⟨rfl, rfl⟩ (ok_opt ok_getNumFinishedNodes))) (ok_cons .lent (by touches)
        (ok_cons .client ⟨rfl, rfl⟩ (ok_cons .client ok_getNumFinishedNodes ok_nil)))))

theorem ok_call {o : Op} (c : CallOk B adds waits o) : ok (policy B) single adds waits .client [] (call o) .client := by
  have hw : GivesWork o = true → ok (policy B) single adds waits .client [] addWorkItem .client :=
    fun e => ok_addWorkItem (.inr ⟨rfl, c.adds e⟩)
  cases o with
  | addNode =>
    exact ok_cons .client (show ok _ _ _ _ _ (_ :: _) _ _ by touches) (ok_cons .client (show ok _ _ _ _ _ (_ :: _) _ _ by touches)
      (ok_cons .client (by touches) (ok_cons .client (hw rfl) ok_nil)))
  | addItem => exact hw rfl
  | deleteTrajectory => exact ok_seq .client (show ok _ _ _ _ _ (_ :: _) _ _ by touches) (ok_opt (hw rfl))
  | freezeTrajectory => exact ok_seq .client (show ok _ _ _ _ _ (_ :: _) _ _ by touches) (hw rfl)
  | addSubmapFromProto =>
    have := c.state (.inl rfl)
    exact ok_cons .client (show ok _ _ _ _ _ (_ :: _) _ _ by touches) (ok_cons .client (by touches) (ok_cons .client (hw rfl) ok_nil))
  | addNodeFromProto => exact ok_seq .client (show ok _ _ _ _ _ (_ :: _) _ _ by touches) (ok_opt (hw rfl))
  | runFinalOptimization =>
    exact ok_cons .client (hw rfl) (ok_cons .client (hw rfl) (ok_cons .client (ok_waitForAllComputations (c.waits rfl)) ok_nil))
  | getData => exact show ok _ _ _ _ _ (_ :: _) _ _ by touches
  | getTrajectoryData => have := c.data rfl; exact show ok _ _ _ _ _ (_ :: _) _ _ by touches
  | getAllSubmapPoses => exact show ok _ _ _ _ _ (_ :: _) _ _ by touches
  | submapToProto => exact ok_seq .client (show ok _ _ _ _ _ (_ :: _) _ _ by touches) (by touches)
  | isTrajectoryFinished => have := c.state (.inr rfl); unfold call; touches
  | setInitialTrajectoryPose => exact show ok _ _ _ _ _ (_ :: _) _ _ by touches
  | setCallback => have := c.callback rfl; unfold call; touches
  | insertRangeData => have := c.submaps rfl; unfold call; touches

theorem ok_calls {ops : List Op} (c : ∀ o ∈ ops, CallOk B adds waits o) : ok (policy B) single adds waits .client [] (calls ops) .client := by
  refine ok_loop (ok_oneOf (fun _ => rfl) ?_)
  intro p hp
  obtain ⟨o, ho, rfl⟩ := List.mem_map.1 hp
  exact ok_call (c o ho)

theorem ok_callback : ok (policy B) single adds waits .worker [] (calls callbackOps) .worker := by
  refine ok_loop (ok_oneOf (fun _ => rfl) ?_)
  intro p hp
  obtain ⟨o, ho, rfl⟩ := List.mem_map.1 hp
  simp only [callbackOps, List.mem_cons, List.not_mem_nil, or_false] at ho
  rcases ho with rfl | rfl | rfl
  · exact ok_addWorkItem (.inl rfl)
  · exact show ok _ _ _ _ _ (_ :: _) _ _ by touches
  · exact show ok _ _ _ _ _ (_ :: _) _ _ by touches

theorem ok_handleWorkQueue : ok (policy B) single adds waits .worker [] (handleWorkQueue (calls callbackOps)) .done :=
  ok_cons .worker (show ok _ _ _ _ _ (_ :: _) _ _ by touches) (ok_cons .worker ok_runOptimization (ok_cons .worker (by touches)
    (ok_cons .worker (ok_opt (ok_seq .worker (show ok _ _ _ _ _ (_ :: _) _ _ by touches) ok_callback))
      (ok_cons .worker (ok_trim (h := [])) (ok_cons .done ok_drainWorkQueue ok_nil)))))

theorem checked (hB : single = true ∨ B .constraints) : Checked (policy B) single := by
  refine ⟨ok_drainWorkQueue, ?_⟩
  intro c
  cases c with
  | handle => exact ok_seq .worker (ok_builder (by simp)) ok_handleWorkQueue
  | notify =>
    refine ok_seq .notifier (ok_builder (by simp)) (ok_seq (h := _ :: _) .notifier ?_ ⟨rfl, rfl⟩)
    rcases hB with rfl | hB <;> touches

end

/-! ## The theorem -/

open Classical in
/-- **C106.** In every execution, with any number of threads calling any functions, a race can only be at one of five members, and each
time a certain function is to blame. -/
theorem race_blamed {ops : List (List Op)} {n : Nat} {s : State} (hs : Reachable ops n s) {x : Loc} (h : Race s x) : Blamed ops x := by
  obtain ⟨as, hs⟩ := hs
  let adds : Nat → Bool := fun i => decide (∃ l, ops[i]? = some l ∧ ∃ o ∈ l, GivesWork o = true)
  let waits : Nat → Bool := fun i => decide (∃ l, ops[i]? = some l ∧ .runFinalOptimization ∈ l)
  let single : Bool := decide (¬ Blamed ops .constraints)
  have HW : ∀ i, waits i = true → adds i = true := by
    intro i hi
    obtain ⟨l, hl, ho⟩ := of_decide_eq_true hi
    exact decide_eq_true ⟨l, hl, _, ho, rfl⟩
  have H : single = true → ∀ i j, waits i = true → adds j = true → i = j := by
    intro hsingle i j hi hj
    obtain ⟨l, hl, ho⟩ := of_decide_eq_true hi
    obtain ⟨l', hl', o, ho', hg⟩ := of_decide_eq_true hj
    by_contra hne
    exact of_decide_eq_true hsingle ⟨i, j, l, l', hne, hl, hl', ho, o, ho', hg⟩
  have C : Checked (policy (Blamed ops)) single := by
    refine checked ?_
    by_cases hb : Blamed ops .constraints
    · exact .inr hb
    · exact .inl (decide_eq_true hb)
  have I0 : Inv (policy (Blamed ops)) single adds waits (init ops n) := by
    have hstart : ∀ t ∈ (init ops n).threads, t.held = [] ∧ t.mode = .client := by
      intro t ht
      rcases List.mem_append.1 ht with ht | ht
      · obtain ⟨l, _, rfl⟩ := List.mem_map.1 ht; exact ⟨rfl, rfl⟩
      · rw [List.eq_of_mem_replicate ht]; exact ⟨rfl, rfl⟩
    have hmode : ∀ i m o, (init ops n).modes i = some (m, o) → m = .client := by
      intro i m o hm
      unfold State.modes at hm
      obtain ⟨t, ht, e⟩ := Option.map_eq_some_iff.1 hm
      cases e
      exact (hstart t (List.mem_of_getElem? ht)).2
    refine ⟨?_, ?_, ?_⟩
    · intro i j ti tj l hi _ hl _
      rw [(hstart ti (List.mem_of_getElem? hi)).1] at hl
      cases hl
    · intro i t ht
      have ht' : ((ops.map fun o => start (calls o) 0 .client) ++ List.replicate n (start (.loop builderTask) 0 .client))[i]? = some t := ht
      rw [List.getElem?_append] at ht'
      split at ht'
      · rw [List.getElem?_map] at ht'
        obtain ⟨l, hl, rfl⟩ := Option.map_eq_some_iff.1 ht'
        refine good_start (m' := .client) (ok_calls ?_)
        intro o ho
        have hmem := List.mem_of_getElem? hl
        refine ⟨fun hg => decide_eq_true ⟨l, hl, o, ho, hg⟩, ?_, ?_, ?_, ?_, ?_⟩
        · rintro rfl; exact decide_eq_true ⟨l, hl, ho⟩
        · rintro (rfl | rfl)
          · exact .inl ⟨l, hmem, ho⟩
          · exact .inr ⟨l, hmem, ho⟩
        · rintro rfl; exact ⟨l, hmem, ho⟩
        · rintro rfl; exact ⟨l, hmem, ho⟩
        · rintro rfl; exact ⟨l, hmem, ho⟩
      · rw [List.eq_of_mem_replicate (List.mem_of_getElem? ht')]
        exact good_start (m' := .client) (ok_loop (ok_builder (by simp)))
    · refine ⟨?_, ?_, ?_, ?_, ?_⟩
      · intro i o hm; cases hmode i _ o hm
      · intro d hd; cases hd
      · intro _ i m o hm hn; rw [hmode i m o hm] at hn; rcases hn with hn | hn <;> cases hn
      · intro _ d hd; cases hd
      · intro _ i d hm; cases hmode i _ d hm
  have hP := no_race (inv_run C H HW I0 hs) h
  unfold policy at hP
  split at hP
  · assumption
  · cases x <;> cases hP

/-- Corollary: a program without those functions, where only one thread gives work, has no race at all. -/
theorem race_free {ops : List (List Op)} {n : Nat} {s : State} (hs : Reachable ops n s)
    (hc : ∀ o ∈ [Op.addSubmapFromProto, .isTrajectoryFinished, .getTrajectoryData, .setCallback, .insertRangeData], ¬ Calls ops o)
    (h1 : ∀ (i j : Nat) (li lj : List Op), ops[i]? = some li → ops[j]? = some lj → (∃ o ∈ li, GivesWork o) → (∃ o ∈ lj, GivesWork o) → i = j)
    (x : Loc) : ¬ Race s x := by
  intro h
  have hb := race_blamed hs h
  simp only [List.mem_cons, List.not_mem_nil, or_false, forall_eq_or_imp, forall_eq] at hc
  obtain ⟨c1, c2, c3, c4, c5⟩ := hc
  cases x
  case trajectoriesState => exact hb.elim c1 c2
  case optTrajectoryData => exact c3 hb
  case callback => exact c4 hb
  case activeSubmaps => exact c5 hb
  case constraints =>
    obtain ⟨i, j, li, lj, hne, hi, hj, hr, ho⟩ := hb
    exact hne (h1 i j li lj hi hj ⟨_, hr, rfl⟩ ho)
  all_goals exact hb

/-! ## The races are there -/

/-- The access that a thread is about to make. -/
def next (t : Thread) : Option (Bool × Loc) :=
  match t.wait, t.stack with
  | none, .run (.acc w x) :: _ => some (w, x)
  | _, _ => none

theorem next_accesses {t : Thread} {w : Bool} {x : Loc} (h : next t = some (w, x)) : Accesses t w x := by
  unfold next at h
  split at h
  · rename_i e1 e2
    cases h
    exact ⟨e1, _, e2⟩
  · cases h

/-- The accesses that two threads are about to make at the end of a run. -/
def ends (ops : List (List Op)) (as : List Act) (i j : Nat) : Option ((Bool × Loc) × (Bool × Loc)) := do
  let s ← run (init ops 0) as
  let a ← s.threads[i]?.bind next
  let b ← s.threads[j]?.bind next
  some (a, b)

theorem race_of_ends {ops : List (List Op)} (as : List Act) (i j : Nat) {w w' : Bool} {x : Loc} (hij : i ≠ j)
    (h : ends ops as i j = some ((w, x), (w', x))) (hw : w = true ∨ w' = true) : ∃ s, Reachable ops 0 s ∧ Race s x := by
  simp only [ends, Option.bind_eq_bind, Option.bind_eq_some_iff, Option.some.injEq, Prod.mk.injEq] at h
  obtain ⟨s, hs, a, ⟨ti, hi, ha⟩, b, ⟨tj, hj, hb⟩, rfl, rfl⟩ := h
  exact ⟨s, ⟨as, hs⟩, i, j, ti, tj, w, w', hij, hi, hj, next_accesses ha, next_accesses hb, hw⟩

/-- Steps of one thread with its choices. -/
def by_ (i : Nat) (ns : List Nat) : List Act := ns.map (.thread i)

/-- `AddWorkItem` by a thread that calls function number `k` of its list. -/
def give (i k : Nat) : List Act := by_ i [1, k, 0, 0, 0, 0, 0, 0, 0, 0, 0]

/-- The new worker registers `HandleWorkQueue` without doing anything else; then the constraint builder calls it. -/
def toHandle (i : Nat) : List Act := by_ i [0, 0, 0, 1, 0, 0, 0, 0, 0] ++ [.fire]

/-- From the start of the callback to `Solve`, with a choice of the access there. -/
def toSolve (i k : Nat) : List Act := by_ i [0, 0, 0, 0, 0, 0, 0, 0, 0, 0, 0, 0, 0, 0, 0, 0, 0, 1, k]

/-- **C106.** `GetTrajectoryData` reads what `Solve` writes without the lock (pose_graph_2d.cc:866-874, 1012-1016). -/
theorem trajectoryData_race : ∃ s, Reachable [[.addItem, .getTrajectoryData]] 0 s ∧ Race s .optTrajectoryData :=
  race_of_ends (give 0 0 ++ toHandle 1 ++ toSolve 2 8 ++ by_ 0 [1, 1, 0, 1, 0]) 2 0 (by decide) (w := true) (w' := false)
    (by decide +kernel) (.inl rfl)

/-- **C106.** `AddSubmapFromProto` looks the state of the trajectory up without the lock; one thread that freezes a trajectory and then loads
submaps, as `MapBuilder::LoadState` does (map_builder.cc:239, 305), is enough for a race. -/
theorem loadState_race : ∃ s, Reachable [[.freezeTrajectory, .addSubmapFromProto]] 0 s ∧ Race s .trajectoriesState :=
  race_of_ends (by_ 0 [1, 0, 0, 0, 0, 0] ++ by_ 0 (List.replicate 9 0) ++ by_ 0 [1, 1, 0, 0, 0, 0, 0, 1, 0] ++
    by_ 1 [0, 1, 0, 0, 0, 0, 7, 0, 1, 0]) 1 0 (by decide) (w := true) (w' := false) (by decide +kernel) (.inl rfl)

/-- **C106.** `IsTrajectoryFinished` and `IsTrajectoryFrozen` read the states without the lock (cloud handlers call them so). -/
theorem isTrajectoryFinished_race : ∃ s, Reachable [[.addItem], [.isTrajectoryFinished]] 0 s ∧ Race s .trajectoriesState :=
  race_of_ends (give 0 0 ++ by_ 1 [1, 0, 1, 0] ++ by_ 2 [0, 1, 0, 0, 0, 0, 6, 0, 1, 0]) 2 1 (by decide) (w := true) (w' := false)
    (by decide +kernel) (.inl rfl)

/-- **C106.** The callback of `WaitForAllComputations` writes the constraints while `Solve` reads them for work that another thread gave. -/
theorem constraints_race : ∃ s, Reachable [[.runFinalOptimization], [.addItem]] 0 s ∧ Race s .constraints :=
  race_of_ends (by_ 0 [1, 0] ++ by_ 0 (List.replicate 20 0) ++ by_ 2 (List.replicate 9 0) ++ by_ 0 (List.replicate 30 0) ++ by_ 0 [1, 0, 0] ++
    [.fire] ++ give 1 0 ++ toHandle 4 ++ toSolve 5 0 ++ by_ 3 [0, 0, 0, 0, 0, 0, 1, 0]) 3 5 (by decide) (w := true) (w' := false)
    (by decide +kernel) (.inl rfl)

/-- **C106.** `SetGlobalSlamOptimizationCallback` writes the callback while `HandleWorkQueue` reads it. -/
theorem callback_race : ∃ s, Reachable [[.addItem, .setCallback]] 0 s ∧ Race s .callback :=
  race_of_ends (give 0 0 ++ toHandle 1 ++ by_ 2 [0, 0, 0, 0, 0, 0, 0, 0, 0, 0, 0, 1, 0, 0, 1, 0] ++ by_ 0 [1, 1, 1, 0]) 0 2 (by decide)
    (w := true) (w' := false) (by decide +kernel) (.inl rfl)

/-- **C106.** `GetAllSubmapPoses` reads the active submaps, which local SLAM changes without a lock. -/
theorem activeSubmaps_race : ∃ s, Reachable [[.insertRangeData], [.getAllSubmapPoses]] 0 s ∧ Race s .activeSubmaps :=
  race_of_ends (by_ 0 [1, 0, 1, 0] ++ by_ 1 [1, 0, 0, 1, 0]) 0 1 (by decide) (w := true) (w' := false) (by decide +kernel) (.inl rfl)

/-! ## Examples -/

/-- One thread builds the map and finishes it, another one looks at it: no race. -/
example {n : Nat} {s : State} (hs : Reachable [[.addNode, .addItem, .runFinalOptimization, .deleteTrajectory], [.getData]] n s) (x : Loc) :
    ¬ Race s x := by
  refine race_free hs ?_ ?_ x
  · simp [Calls]
  · have hz : ∀ (i : Nat) (l : List Op),
        [[Op.addNode, .addItem, .runFinalOptimization, .deleteTrajectory], [.getData]][i]? = some l → (∃ o ∈ l, GivesWork o) → i = 0 := by
      intro i l hi hg
      rcases i with _ | _ | i
      · rfl
      · cases hi; simp [GivesWork] at hg
      · simp at hi
    intro i j li lj hi hj hgi hgj
    rw [hz i li hi hgi, hz j lj hj hgj]

/-- The runs are long enough for `Solve` to be about to write while another thread reads under the lock, at different members. -/
example : ends [[.addItem, .getData]] (give 0 0 ++ toHandle 1 ++ toSolve 2 6 ++ by_ 0 [1, 1, 0, 1, 4]) 2 0 =
    some ((true, .optSubmaps), (false, .optImu)) := by
  decide +kernel

end Verif.Races
