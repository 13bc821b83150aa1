import Verif.Uploader
import Mathlib.Data.List.Flatten
import Mathlib.Data.List.Induction

/-!
# C46: uploaded sensor data keeps its order and gets translated ids
-/

namespace Verif.Uploader

open Verif

set_option linter.unusedSectionVars false

/-! ### Specification -/

/-- `wire` is `orig` with all trajectory ids replaced by `u`. -/
def Translated (orig wire : Item) (u : Int) : Prop :=
  wire.traj = u ∧ wire.rest = orig.rest ∧
    (orig.submaps = none ∧ wire.submaps = none ∨
      ∃ l l', orig.submaps = some l ∧ wire.submaps = some l' ∧ l'.map Prod.snd = l.map Prod.snd ∧ ∀ e ∈ l', e.1 = u)

theorem translated_rewrite (x : Item) (u : Int) : Translated x (rewrite x u) u := by
  refine ⟨rfl, rfl, ?_⟩
  cases h : x.submaps with
  | none => exact Or.inl ⟨rfl, by simp [rewrite, h]⟩
  | some l => exact Or.inr ⟨l, l.map fun e => (u, e.2), rfl, by simp [rewrite, h], by simp, by simp +contextual [eq_comm]⟩

/-- The original items of batches. -/
def origs (l : List (List Out)) : List Item := l.flatten.map Out.orig

theorem origs_append (a b : List (List Out)) : origs (a ++ b) = origs a ++ origs b := by simp [origs]

/-- The batch unless it is in flight. -/
def State.pending (s : State) : List Out := if s.pc = .send then [] else s.batch

structure Inv (n : Int) (s : State) : Prop where
  sorted : SMap.Sorted s.infos
  order : (origs (s.sent.map Prod.fst) ++ (s.pending.map Out.orig ++ s.queue)).Sublist s.enqueued
  size : ∀ e ∈ s.sent, (e.1.length : Int) = n
  expand : s.accepted = s.sent.flatMap fun e => List.replicate e.2 e.1
  flight : s.pc = .send → ∃ l k, s.sent = l ++ [(s.batch, k)]
  empty : s.pc ≠ .loop → s.pc ≠ .send → s.pc ≠ .done → s.batch = []
  current : ∀ o ∈ s.batch, translate s o.orig.traj = some o.wire.traj ∧ Translated o.orig o.wire o.wire.traj
  reg : ∀ e ∈ s.sent, ∀ o ∈ e.1, (o.orig.traj, o.wire.traj) ∈ s.registered ∧ Translated o.orig o.wire o.wire.traj
  regs : ∀ t u, translate s t = some u → (t, u) ∈ s.registered

theorem bump_snoc (l : List (List Out × Nat)) (b : List Out) (k : Nat) : bump (l ++ [(b, k)]) = l ++ [(b, k + 1)] := by
  induction l with
  | nil => rfl
  | cons e l ih =>
    cases l with
    | nil => rfl
    | cons e' l => simp only [List.cons_append, bump] at ih ⊢; rw [ih]

theorem get?_map_none {l : List (Int × Option Int)} {t : Int} :
    (SMap.get? t (l.map fun e => (e.1, (none : Option Int)))).join = none := by
  cases h : SMap.get? t (l.map fun e => (e.1, (none : Option Int))) with
  | none => rfl
  | some v =>
    have := SMap.mem_of_get? h
    simp only [List.mem_map, Prod.mk.injEq] at this
    obtain ⟨e, -, -, rfl⟩ := this
    rfl

theorem inv_init (n : Int) : Inv n {} :=
  ⟨SMap.sorted_nil, by simp [origs, State.pending], by simp, by simp, by simp, by simp, by simp, by simp,
    by simp [translate, SMap.get?]⟩

theorem inv_step {n : Int} {s s' : State} {a : Act} (hi : Inv n s) (h : exec n s a = some s') : Inv n s' := by
  cases a with
  | enqueue x =>
    simp only [exec, Option.some.injEq] at h
    subst h
    refine ⟨hi.sorted, ?_, hi.size, hi.expand, hi.flight, hi.empty, hi.current, hi.reg, hi.regs⟩
    have := hi.order.append (List.Sublist.refl [x])
    simpa [State.pending] using this
  | addTrajectory t a =>
    simp only [exec] at h
    split at h
    · cases h
    rename_i hn
    simp only [Option.some.injEq] at h
    subst h
    have htr : ∀ t', (SMap.get? t' (SMap.put t a s.infos)).join = if t = t' then a else translate s t' := by
      intro t'
      simp only [translate, SMap.get?_put]
      split <;> simp
    refine ⟨SMap.sorted_put hi.sorted, hi.order, hi.size, hi.expand, hi.flight, hi.empty, ?_, ?_, ?_⟩
    · intro o ho
      obtain ⟨h1, h2⟩ := hi.current o ho
      refine ⟨?_, h2⟩
      refine (htr _).trans ?_
      rw [if_neg]
      · exact h1
      · rintro rfl; simp [translate, hn] at h1
    · intro e he o ho
      obtain ⟨h1, h2⟩ := hi.reg e he o ho
      exact ⟨List.mem_append_left _ h1, h2⟩
    · intro t' u hu
      replace hu := (htr t').symm.trans hu
      split at hu
      · rename_i e; subst e; subst hu; simp
      · exact List.mem_append_left _ (hi.regs t' u hu)
  | shutdown =>
    simp only [exec] at h
    split at h
    · cases h
    simp only [Option.some.injEq] at h
    subst h
    exact ⟨hi.sorted, hi.order, hi.size, hi.expand, hi.flight, hi.empty, hi.current, hi.reg, hi.regs⟩
  | leave =>
    simp only [exec] at h
    split at h
    · rename_i hp
      simp only [Option.some.injEq] at h
      subst h
      have ho := hi.order
      refine ⟨hi.sorted, ?_, hi.size, hi.expand, by simp, by simp, hi.current, hi.reg, hi.regs⟩
      simpa [State.pending, hp.1] using ho
    · cases h
  | pop =>
    simp only [exec] at h
    split at h
    · rename_i hp
      have ho := hi.order
      simp only [State.pending, hp.1, reduceCtorEq, if_false] at ho
      split at h
      · simp only [Option.some.injEq] at h; subst h; exact hi
      · rename_i x q hq
        rw [hq] at ho
        split at h
        · simp only [Option.some.injEq] at h
          subst h
          refine ⟨hi.sorted, ?_, hi.size, hi.expand, by simp, by simp, by simp, hi.reg, hi.regs⟩
          simp only [State.pending, reduceCtorEq, if_false, List.map_nil, List.nil_append]
          refine List.Sublist.trans ?_ ho
          refine List.Sublist.append (List.Sublist.refl _) ?_
          exact ((List.sublist_cons_self x q).trans (List.sublist_append_right _ _))
        · rename_i u hu
          have hnew : ∀ o ∈ s.batch ++ [⟨x, rewrite x u⟩], translate s o.orig.traj = some o.wire.traj ∧
              Translated o.orig o.wire o.wire.traj := by
            intro o ho
            rcases List.mem_append.1 ho with ho | ho
            · exact hi.current o ho
            · simp only [List.mem_singleton] at ho
              subst ho
              exact ⟨hu, translated_rewrite x u⟩
          split at h
          · rename_i hsz
            simp only [Option.some.injEq] at h
            subst h
            refine ⟨hi.sorted, ?_, ?_, ?_, ?_, by simp, hnew, ?_, hi.regs⟩
            · simpa [State.pending, origs] using ho
            · intro e he
              rcases List.mem_append.1 he with he | he
              · exact hi.size e he
              · simp only [List.mem_singleton] at he; subst he; exact hsz
            · simp [hi.expand]
            · exact fun _ => ⟨_, _, rfl⟩
            · intro e he o ho'
              rcases List.mem_append.1 he with he | he
              · exact hi.reg e he o ho'
              · simp only [List.mem_singleton] at he
                subst he
                obtain ⟨h1, h2⟩ := hnew o ho'
                exact ⟨hi.regs _ _ h1, h2⟩
          · simp only [Option.some.injEq] at h
            subst h
            refine ⟨hi.sorted, ?_, hi.size, hi.expand, ?_, ?_, hnew, hi.reg, hi.regs⟩
            · simpa [State.pending, hp.1] using ho
            · simp [hp.1]
            · simp [hp.1]
    · cases h
  | attempt acc o =>
    simp only [exec] at h
    split at h
    · rename_i hp
      obtain ⟨l, k, hl⟩ := hi.flight hp
      -- the state after the remote server may have accepted the batch
      have hs1 : ∀ s1, s1 = (if acc then { s with accepted := s.accepted ++ [s.batch], sent := bump s.sent } else s) →
          Inv n s1 ∧ s1.pc = .send := by
        intro s1 e1
        cases acc with
        | false => simp only [Bool.false_eq_true, if_false] at e1; subst e1; exact ⟨hi, hp⟩
        | true =>
          simp only [if_true] at e1
          subst e1
          refine ⟨?_, hp⟩
          have ho := hi.order
          have hsent : bump s.sent = l ++ [(s.batch, k + 1)] := by rw [hl, bump_snoc]
          refine ⟨hi.sorted, ?_, ?_, ?_, ?_, hi.empty, hi.current, ?_, hi.regs⟩
          · simp only [hsent, State.pending, hp, if_true]
            simpa [State.pending, hp, hl] using ho
          · intro e he
            simp only [hsent] at he
            rcases List.mem_append.1 he with he | he
            · exact hi.size e (by rw [hl]; exact List.mem_append_left _ he)
            · simp only [List.mem_singleton] at he
              subst he
              exact hi.size (s.batch, k) (by rw [hl]; simp)
          · show s.accepted ++ [s.batch] = (bump s.sent).flatMap fun e => List.replicate e.2 e.1
            rw [hsent, hi.expand, hl]
            simp [List.replicate_succ']
          · exact fun _ => ⟨l, k + 1, hsent⟩
          · intro e he o' ho'
            simp only [hsent] at he
            rcases List.mem_append.1 he with he | he
            · exact hi.reg e (by rw [hl]; exact List.mem_append_left _ he) o' ho'
            · simp only [List.mem_singleton] at he
              subst he
              exact hi.reg (s.batch, k) (by rw [hl]; simp) o' ho'
      generalize (if acc then { s with accepted := s.accepted ++ [s.batch], sent := bump s.sent } else s) = s1 at h hs1
      obtain ⟨hi1, hp1⟩ := hs1 s1 rfl
      have ho := hi1.order
      have clear : ∀ pc, pc ≠ .send → Inv n { s1 with batch := [], pc := pc } := by
        intro pc hpc
        refine ⟨hi1.sorted, ?_, hi1.size, hi1.expand, ?_, ?_, by simp, hi1.reg, hi1.regs⟩
        · simpa [State.pending, hp1] using ho
        · intro e; exact absurd e hpc
        · simp
      cases o with
      | ok =>
        simp only at h
        split at h
        · simp only [Option.some.injEq] at h; subst h; exact clear _ (by simp)
        · cases h
      | retry => simp only [Option.some.injEq] at h; subst h; exact hi1
      | fail => simp only [Option.some.injEq] at h; subst h; exact clear _ (by simp)
    · cases h
  | connected ok =>
    simp only [exec] at h
    split at h
    · rename_i hp
      have hb := hi.empty (by simp [hp]) (by simp [hp]) (by simp [hp])
      have ho := hi.order
      simp only [Option.some.injEq] at h
      subst h
      refine ⟨hi.sorted, ?_, hi.size, hi.expand, ?_, by simp [hb], hi.current, hi.reg, hi.regs⟩
      · simpa [State.pending, hb] using ho
      · cases ok <;> simp
    · cases h
  | wind =>
    simp only [exec] at h
    split at h
    · rename_i hp
      have hb := hi.empty (by simp [hp]) (by simp [hp]) (by simp [hp])
      have ho := hi.order
      split at h
      · simp only [Option.some.injEq] at h
        subst h
        refine ⟨hi.sorted, ?_, hi.size, hi.expand, by simp, by simp [hb], hi.current, hi.reg, hi.regs⟩
        simpa [State.pending, hb] using ho
      · split at h
        · simp only [Option.some.injEq] at h; subst h; exact hi
        · rename_i x q hq
          split at h
          · simp only [Option.some.injEq] at h
            subst h
            refine ⟨hi.sorted, ?_, hi.size, hi.expand, by simp, by simp [hb], hi.current, hi.reg, hi.regs⟩
            simpa [State.pending, hb] using ho
          · simp only [Option.some.injEq] at h
            subst h
            refine ⟨hi.sorted, ?_, hi.size, hi.expand, hi.flight, hi.empty, hi.current, hi.reg, hi.regs⟩
            rw [hq] at ho
            simp only [State.pending, hb] at ho ⊢
            refine List.Sublist.trans (List.Sublist.append (List.Sublist.refl _) ?_) ho
            exact List.Sublist.append (List.Sublist.refl _) (List.sublist_cons_self x q)
    · cases h
  | reset =>
    simp only [exec] at h
    split at h
    · rename_i hp
      have hb := hi.empty (by simp [hp]) (by simp [hp]) (by simp [hp])
      have ho := hi.order
      simp only [Option.some.injEq] at h
      subst h
      refine ⟨?_, ?_, hi.size, hi.expand, by simp, by simp [hb], by simp [hb], hi.reg, ?_⟩
      · have := hi.sorted
        unfold SMap.Sorted at this ⊢
        exact List.pairwise_map.2 this
      · simpa [State.pending, hb] using ho
      · intro t u hu
        simp only [translate, get?_map_none] at hu
        cases hu
    · cases h
  | register a =>
    simp only [exec] at h
    split at h
    · rename_i hp
      have hb := hi.empty (by simp [hp]) (by simp [hp]) (by simp [hp])
      have ho := hi.order
      simp only [Option.some.injEq] at h
      subst h
      refine ⟨hi.sorted, ?_, hi.size, hi.expand, by simp, by simp [hb], hi.current, hi.reg, hi.regs⟩
      simpa [State.pending, hb] using ho
    · rename_i t todo hp
      have hb := hi.empty (by simp [hp]) (by simp [hp]) (by simp [hp])
      have ho := hi.order
      split at h
      · simp only [Option.some.injEq] at h
        subst h
        refine ⟨hi.sorted, ?_, hi.size, hi.expand, by simp, by simp [hb], hi.current, hi.reg, hi.regs⟩
        simpa [State.pending, hb] using ho
      · rename_i u
        simp only [Option.some.injEq] at h
        subst h
        refine ⟨SMap.sorted_put hi.sorted, ?_, hi.size, hi.expand, by simp, by simp [hb], by simp [hb], ?_, ?_⟩
        · simpa [State.pending, hb] using ho
        · intro e he o ho'
          obtain ⟨h1, h2⟩ := hi.reg e he o ho'
          exact ⟨List.mem_append_left _ h1, h2⟩
        · intro t' u' hu
          simp only [translate, SMap.get?_put] at hu
          split at hu
          · rename_i e; subst e
            simp only [Option.join_some, Option.some.injEq] at hu
            subst hu; simp
          · exact List.mem_append_left _ (hi.regs t' u' hu)
    · cases h

theorem exec_inv {n : Int} {as : List Act} {s : State} (h : Exec n as s) : Inv n s := by
  induction h with
  | init => exact inv_init n
  | step _ h ih => exact inv_step ih h

/-! ### Theorems -/

/-- **C46, in general.** What the remote server accepted are batches taken in order from the enqueued items, each batch any
number of times. -/
theorem uploaded_batches {n : Int} {as : List Act} {s : State} (h : Exec n as s) :
    ∃ B : List (List Out × Nat), s.accepted = B.flatMap (fun e => List.replicate e.2 e.1) ∧
      (origs (B.map Prod.fst)).Sublist s.enqueued := by
  have hi := exec_inv h
  exact ⟨s.sent, hi.expand, (List.sublist_append_left _ _).trans hi.order⟩

/-- **C46.** Every batch accepted has exactly the configured size. -/
theorem batch_size {n : Int} {as : List Act} {s : State} (h : Exec n as s) {b : List Out} (hb : b ∈ s.accepted) :
    (b.length : Int) = n := by
  have hi := exec_inv h
  rw [hi.expand, List.mem_flatMap] at hb
  obtain ⟨e, he, hr⟩ := hb
  rw [(List.mem_replicate.1 hr).2]
  exact hi.size e he

/-- **C46.** In every item accepted all trajectory ids are the remote id registered for the trajectory of the item. -/
theorem ids_translated {n : Int} {as : List Act} {s : State} (h : Exec n as s) {b : List Out} (hb : b ∈ s.accepted)
    {o : Out} (ho : o ∈ b) : ∃ u, (o.orig.traj, u) ∈ s.registered ∧ Translated o.orig o.wire u := by
  have hi := exec_inv h
  rw [hi.expand, List.mem_flatMap] at hb
  obtain ⟨e, he, hr⟩ := hb
  rw [(List.mem_replicate.1 hr).2] at ho
  exact ⟨_, hi.reg e he o ho⟩

/-- While a batch is being filled or sent, its ids are those of the latest registration. -/
theorem ids_current {n : Int} {as : List Act} {s : State} (h : Exec n as s) {o : Out} (ho : o ∈ s.batch) :
    SMap.get? o.orig.traj s.infos = some (some o.wire.traj) := by
  have := ((exec_inv h).current o ho).1
  unfold translate at this
  cases hx : SMap.get? o.orig.traj s.infos with
  | none => simp [hx] at this
  | some v => simp only [hx, Option.join_some] at this; rw [this]

/-- No batch that was accepted is sent again. -/
def NoRepeat (as : List Act) : Prop := .attempt true .retry ∉ as

structure Once (s : State) : Prop where
  le : ∀ e ∈ s.sent, e.2 ≤ 1
  flight : s.pc = .send → ∃ l, s.sent = l ++ [(s.batch, 0)]

theorem exec_once {n : Int} {as : List Act} {s : State} (h : Exec n as s) (hr : NoRepeat as) : Once s := by
  induction h with
  | init => exact ⟨by simp, by simp⟩
  | @step as s s' a he h ih =>
    have hr1 : NoRepeat as := fun hm => hr (List.mem_append_left _ hm)
    have ha : a ≠ .attempt true .retry := fun e => hr (by simp [e])
    have io := ih hr1
    have hi := exec_inv he
    cases a with
    | enqueue x => simp only [exec, Option.some.injEq] at h; subst h; exact ⟨io.le, io.flight⟩
    | addTrajectory t a =>
      simp only [exec] at h
      split at h
      · cases h
      · simp only [Option.some.injEq] at h; subst h; exact ⟨io.le, io.flight⟩
    | shutdown =>
      simp only [exec] at h
      split at h
      · cases h
      · simp only [Option.some.injEq] at h; subst h; exact ⟨io.le, io.flight⟩
    | leave =>
      simp only [exec] at h
      split at h
      · simp only [Option.some.injEq] at h; subst h; exact ⟨io.le, by simp⟩
      · cases h
    | pop =>
      simp only [exec] at h
      split at h
      · rename_i hp
        split at h
        · simp only [Option.some.injEq] at h; subst h; exact io
        · split at h
          · simp only [Option.some.injEq] at h; subst h; exact ⟨io.le, by simp⟩
          · split at h
            · simp only [Option.some.injEq] at h
              subst h
              refine ⟨?_, fun _ => ⟨_, rfl⟩⟩
              intro e hm
              rcases List.mem_append.1 hm with hm | hm
              · exact io.le e hm
              · simp only [List.mem_singleton] at hm; subst hm; simp
            · simp only [Option.some.injEq] at h; subst h; exact ⟨io.le, by simp [hp.1]⟩
      · cases h
    | attempt acc o =>
      simp only [exec] at h
      split at h
      · rename_i hp
        obtain ⟨l, hl⟩ := io.flight hp
        have hb : ∀ e ∈ bump s.sent, e.2 ≤ 1 := by
          rw [hl, bump_snoc]
          intro e hm
          rcases List.mem_append.1 hm with hm | hm
          · exact io.le e (by rw [hl]; exact List.mem_append_left _ hm)
          · simp only [List.mem_singleton] at hm; subst hm; simp
        cases acc <;> cases o <;> simp only [Bool.false_eq_true, if_false, if_true, Option.some.injEq, reduceCtorEq] at h
        · subst h; exact io
        · subst h; exact ⟨io.le, by simp⟩
        · subst h; exact ⟨hb, by simp⟩
        · exact absurd rfl ha
        · subst h; exact ⟨hb, by simp⟩
      · cases h
    | connected ok =>
      simp only [exec] at h
      split at h
      · simp only [Option.some.injEq] at h; subst h; exact ⟨io.le, by cases ok <;> simp⟩
      · cases h
    | wind =>
      simp only [exec] at h
      split at h
      · rename_i hp
        split at h
        · simp only [Option.some.injEq] at h; subst h; exact ⟨io.le, by simp⟩
        · split at h
          · simp only [Option.some.injEq] at h; subst h; exact io
          · split at h
            · simp only [Option.some.injEq] at h; subst h; exact ⟨io.le, by simp⟩
            · simp only [Option.some.injEq] at h; subst h; exact ⟨io.le, by simp [hp]⟩
      · cases h
    | reset =>
      simp only [exec] at h
      split at h
      · simp only [Option.some.injEq] at h; subst h; exact ⟨io.le, by simp⟩
      · cases h
    | register a =>
      simp only [exec] at h
      split at h
      · simp only [Option.some.injEq] at h; subst h; exact ⟨io.le, by simp⟩
      · split at h
        · simp only [Option.some.injEq] at h; subst h; exact ⟨io.le, by simp⟩
        · simp only [Option.some.injEq] at h; subst h; exact ⟨io.le, by simp⟩
      · cases h

/-- **C46 (partial).** If no batch is sent again after it was accepted, the accepted items are a subsequence of the enqueued
items, in order. Missing: batches that are sent again although they were accepted, which the statement does not allow
(`accepted_twice`), and the last part of the statement, which is false (`batch_lost`, `queue_lost`). -/
theorem uploaded_order_partial {n : Int} {as : List Act} {s : State} (h : Exec n as s) (hr : NoRepeat as) :
    (origs s.accepted).Sublist s.enqueued := by
  have hi := exec_inv h
  have io := exec_once h hr
  refine List.Sublist.trans ?_ ((List.sublist_append_left _ _).trans hi.order)
  have key : ∀ l : List (List Out × Nat), (∀ e ∈ l, e.2 ≤ 1) →
      (origs (l.flatMap fun e => List.replicate e.2 e.1)).Sublist (origs (l.map Prod.fst)) := by
    intro l hl
    induction l with
    | nil => simp
    | cons e l ih =>
      have ih := ih fun x hx => hl x (by simp [hx])
      have h1 := hl e (by simp)
      simp only [List.flatMap_cons, List.map_cons, origs_append]
      rw [show e.1 :: l.map Prod.fst = [e.1] ++ l.map Prod.fst from rfl, origs_append]
      refine List.Sublist.append ?_ ih
      obtain ⟨b, c⟩ := e
      have : c = 0 ∨ c = 1 := by simp only at h1; omega
      rcases this with rfl | rfl <;> simp [origs]
  rw [hi.expand]
  exact key _ io.le

/-- Nothing has gone wrong so far: neither sending nor finding the remote id of a trajectory has failed. -/
def Smooth (as : List Act) (s : State) : Prop := NoRepeat as ∧ (∀ ok, .connected ok ∉ as) ∧ s.pc ≠ .connect

structure Whole (n : Int) (s : State) : Prop where
  pc : s.pc = .loop ∨ s.pc = .send ∨ s.pc = .done
  all : origs (s.sent.map Prod.fst) ++ (s.pending.map Out.orig ++ s.queue) = s.enqueued
  ones : ∀ e ∈ s.sent, e.2 = 1 ∨ (s.pc = .send ∧ e.1 = s.batch)
  small : s.pc ≠ .send → 1 ≤ n → (s.batch.length : Int) < n
  twice : s.pc = .send → ∃ l, s.sent = l ++ [(s.batch, 0)] ∧ ∀ e ∈ l, e.2 = 1

theorem exec_whole {n : Int} {as : List Act} {s : State} (h : Exec n as s) (hs : Smooth as s) : Whole n s := by
  induction h with
  | init => exact ⟨by simp, by simp [origs, State.pending], by simp, fun _ hn => by simp; omega, by simp⟩
  | @step as s s' a he h ih =>
    obtain ⟨hr, hc, hpc⟩ := hs
    have hr1 : NoRepeat as := fun hm => hr (List.mem_append_left _ hm)
    have ha : a ≠ .attempt true .retry := fun e => hr (by simp [e])
    have hca : ∀ ok, a ≠ .connected ok := fun ok e => hc ok (by simp [e])
    have hpc1 : s.pc ≠ .connect := by
      intro hp
      cases a with
      | connected ok => exact hca ok rfl
      | enqueue x => simp only [exec, Option.some.injEq] at h; subst h; exact hpc hp
      | addTrajectory t a =>
        simp only [exec] at h
        split at h
        · cases h
        · simp only [Option.some.injEq] at h; subst h; exact hpc hp
      | shutdown =>
        simp only [exec] at h
        split at h
        · cases h
        · simp only [Option.some.injEq] at h; subst h; exact hpc hp
      | _ => simp [exec, hp] at h
    have w := ih ⟨hr1, fun ok hm => hc ok (List.mem_append_left _ hm), hpc1⟩
    have hall := w.all
    cases a with
    | connected ok => exact absurd rfl (hca ok)
    | enqueue x =>
      simp only [exec, Option.some.injEq] at h
      subst h
      refine ⟨w.pc, ?_, w.ones, w.small, w.twice⟩
      simp only [State.pending] at hall ⊢
      rw [← hall]; simp
    | addTrajectory t a =>
      simp only [exec] at h
      split at h
      · cases h
      · simp only [Option.some.injEq] at h; subst h; exact ⟨w.pc, w.all, w.ones, w.small, w.twice⟩
    | shutdown =>
      simp only [exec] at h
      split at h
      · cases h
      · simp only [Option.some.injEq] at h; subst h; exact ⟨w.pc, w.all, w.ones, w.small, w.twice⟩
    | leave =>
      simp only [exec] at h
      split at h
      · rename_i hp
        simp only [Option.some.injEq] at h
        subst h
        refine ⟨by simp, ?_, ?_, ?_, by simp⟩
        · simpa [State.pending, hp.1] using hall
        · intro e hm
          rcases w.ones e hm with h1 | h1
          · exact Or.inl h1
          · rw [hp.1] at h1; simp at h1
        · intro _ hn; exact w.small (by simp [hp.1]) hn
      · cases h
    | pop =>
      simp only [exec] at h
      split at h
      · rename_i hp
        simp only [State.pending, hp.1, reduceCtorEq, if_false] at hall
        have hones : ∀ e ∈ s.sent, e.2 = 1 := by
          intro e hm
          rcases w.ones e hm with h1 | h1
          · exact h1
          · rw [hp.1] at h1; simp at h1
        split at h
        · simp only [Option.some.injEq] at h; subst h; exact w
        · rename_i x q hq
          rw [hq] at hall
          split at h
          · simp only [Option.some.injEq] at h; subst h; exact absurd rfl hpc
          · split at h
            · rename_i u hu hsz
              simp only [Option.some.injEq] at h
              subst h
              refine ⟨by simp, ?_, ?_, by simp, fun _ => ⟨_, rfl, hones⟩⟩
              · simpa [State.pending, origs] using hall
              · intro e hm
                rcases List.mem_append.1 hm with hm | hm
                · exact Or.inl (hones e hm)
                · simp only [List.mem_singleton] at hm
                  subst hm
                  exact Or.inr ⟨rfl, rfl⟩
            · rename_i u hu hsz
              simp only [Option.some.injEq] at h
              subst h
              refine ⟨w.pc, ?_, fun e hm => Or.inl (hones e hm), ?_, by simp [hp.1]⟩
              · simpa [State.pending, hp.1] using hall
              · intro _ hn
                have := w.small (by simp [hp.1]) hn
                simp only [List.length_append, List.length_singleton] at hsz ⊢
                omega
      · cases h
    | attempt acc o =>
      simp only [exec] at h
      split at h
      · rename_i hp
        obtain ⟨l, hl, hl1⟩ := w.twice hp
        simp only [State.pending, hp, if_true, List.map_nil, List.nil_append] at hall
        cases acc <;> cases o <;> simp only [Bool.false_eq_true, if_false, if_true, Option.some.injEq, reduceCtorEq] at h
        · subst h; exact w
        · subst h; exact absurd rfl hpc
        · subst h
          have hb : bump s.sent = l ++ [(s.batch, 1)] := by rw [hl, bump_snoc]
          refine ⟨by simp, ?_, ?_, ?_, by simp⟩
          · simp only [hb, State.pending, reduceCtorEq, if_false, List.map_nil, List.nil_append]
            rw [← hall, hl]; simp
          · intro e hm
            simp only [hb] at hm
            rcases List.mem_append.1 hm with hm | hm
            · exact Or.inl (hl1 e hm)
            · simp only [List.mem_singleton] at hm; subst hm; exact Or.inl rfl
          · intro _ hn; simp; omega
        · exact absurd rfl ha
        · subst h; exact absurd rfl hpc
      · cases h
    | wind => rcases w.pc with hp | hp | hp <;> simp [exec, hp] at h
    | reset => rcases w.pc with hp | hp | hp <;> simp [exec, hp] at h
    | register a => rcases w.pc with hp | hp | hp <;> simp [exec, hp] at h

/-- **C46, without failures.** As long as nothing goes wrong, nothing is lost: what is not yet uploaded is in the queue or in
the batch being filled, and that batch is smaller than the configured size. -/
theorem nothing_lost {n : Int} {as : List Act} {s : State} (h : Exec n as s) (hs : Smooth as s) (hp : s.pc ≠ .send) :
    origs s.accepted ++ (s.batch.map Out.orig ++ s.queue) = s.enqueued ∧ (1 ≤ n → (s.batch.length : Int) < n) := by
  have w := exec_whole h hs
  refine ⟨?_, w.small hp⟩
  have hall := w.all
  simp only [State.pending, hp, if_false] at hall
  rw [← hall]
  congr 1
  rw [(exec_inv h).expand]
  have key : ∀ l : List (List Out × Nat), (∀ e ∈ l, e.2 = 1) → (l.flatMap fun e => List.replicate e.2 e.1) = l.map Prod.fst := by
    intro l hl
    induction l with
    | nil => rfl
    | cons e l ih =>
      simp only [List.flatMap_cons, List.map_cons, hl e (by simp), ih fun x hx => hl x (by simp [hx])]
      rfl
  rw [key]
  intro e hm
  rcases w.ones e hm with h1 | h1
  · exact h1
  · exact absurd h1.1 hp

/-- An item whose trajectory has no remote id makes the uploader throw away the batch being filled, whatever trajectories it
belongs to. -/
theorem untranslated_discards {n : Int} {s : State} {x : Item} {q : List Item} (hp : s.pc = .loop)
    (hd : s.shuttingDown = false) (hq : s.queue = x :: q) (hx : translate s x.traj = none) :
    exec n s .pop = some { s with queue := q, batch := [], pc := .connect } := by
  simp [exec, hp, hd, hq, hx]

/-! ### Concrete executions -/

/-- Several actions in a row. -/
def runs (n : Int) (as : List Act) : Option State := as.foldlM (exec n) {}

theorem runs_exec {n : Int} {as : List Act} {s : State} (h : runs n as = some s) : Exec n as s := by
  induction as using List.reverseRecOn generalizing s with
  | nil =>
    simp only [runs, List.foldlM_nil] at h
    injection h with h
    subst h
    exact .init
  | append_singleton as a ih =>
    simp only [runs, List.foldlM_append, List.foldlM_cons, List.foldlM_nil, Option.bind_eq_bind,
      Option.bind_eq_some_iff] at h
    obtain ⟨s1, h1, s2, h2, h3⟩ := h
    injection h3 with h3
    subst h3
    exact .step (ih h1) h2

/-- A sensor item of trajectory 0. -/
def itm (k : Nat) : Item := ⟨0, none, k⟩

/-- Two items are uploaded in a batch of two, under the remote id 7. -/
example : (runs 2 [.addTrajectory 0 (some 7), .enqueue (itm 1), .enqueue ⟨0, some [(0, true)], 2⟩, .pop, .pop,
    .attempt true .ok]).map (fun s => s.accepted.map fun b => b.map Out.wire) =
    some [[⟨7, none, 1⟩, ⟨7, some [(7, true)], 2⟩]] := rfl

/-- After a failure the queue is wound forward to the next new submap, and the trajectory gets a new remote id. -/
example : (runs 1 [.addTrajectory 0 (some 7), .enqueue (itm 1), .enqueue (itm 2), .enqueue ⟨0, some [(0, true)], 3⟩, .pop,
    .attempt false .fail, .connected true, .wind, .wind, .reset, .register (some 8), .register none, .pop,
    .attempt true .ok]).map (fun s => s.accepted.map fun b => b.map Out.wire) =
    some [[⟨8, some [(8, true)], 3⟩]] := rfl

/-- **C46, negation.** A batch that is not full at shutdown is lost, although nothing went wrong. -/
theorem batch_lost : ∃ (as : List Act) (s : State), Exec 2 as s ∧ Smooth as s ∧ s.pc = .done ∧ s.enqueued = [itm 1] ∧
    s.queue = [] ∧ s.accepted = [] :=
  ⟨[.addTrajectory 0 (some 7), .enqueue (itm 1), .pop, .shutdown, .leave], _, runs_exec rfl,
    ⟨by simp [NoRepeat], by simp, by simp⟩, rfl, rfl, rfl, rfl⟩

/-- **C46, negation.** Items that are in the queue at shutdown are lost, even if they would make full batches. -/
theorem queue_lost : ∃ (as : List Act) (s : State), Exec 1 as s ∧ Smooth as s ∧ s.pc = .done ∧ s.enqueued = [itm 1] ∧
    s.accepted = [] :=
  ⟨[.addTrajectory 0 (some 7), .enqueue (itm 1), .shutdown, .leave], _, runs_exec rfl,
    ⟨by simp [NoRepeat], by simp, by simp⟩, rfl, rfl, rfl⟩

/-- **C46, negation.** If the answer to an accepted batch is lost, the client sends the batch again and the remote server
accepts it twice. -/
theorem accepted_twice : ∃ (as : List Act) (s : State), Exec 1 as s ∧ s.enqueued = [itm 1] ∧
    origs s.accepted = [itm 1, itm 1] :=
  ⟨[.addTrajectory 0 (some 7), .enqueue (itm 1), .pop, .attempt true .retry, .attempt true .ok], _, runs_exec rfl, rfl, rfl⟩

end Verif.Uploader
