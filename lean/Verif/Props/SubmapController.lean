import Verif.SubmapController
import Verif.Props.MapById

/-!
# C50: assembling uploaded submaps
-/

namespace Verif.Controller

open Verif MapById

set_option linter.unusedSectionVars false

variable {G C : Type}

/-! ### Specification: what happens to one submap id -/

/-- The submap under an id after one more message, and the submap handed out. It comes into being with a message about one
range data; unknown submaps are ignored otherwise. -/
inductive Spec (k : Kind G C) : Option (Obj C) → Msg G → Option (Obj C) → Option (Obj C) → Prop where
  | create {m : Msg G} {c : C} : m.rightKind = true → m.num = 1 → k.apply k.fresh m.payload = some c →
      Spec k none m (some ⟨1, m.finished, c⟩) (some ⟨1, m.finished, c⟩)
  | ignore {m : Msg G} : ¬ (m.rightKind = true ∧ m.num = 1) → Spec k none m none none
  | update {o : Obj C} {m : Msg G} {c : C} : m.finished = false → k.apply o.content m.payload = some c →
      Spec k (some o) m (some ⟨0, false, c⟩) (some ⟨0, false, c⟩)
  | finish {o : Obj C} {m : Msg G} {c : C} : m.finished = true → k.apply o.content m.payload = some c →
      Spec k (some o) m none (some ⟨m.num, true, c⟩)

/-- The submap the controller has under an id. -/
def current (s : State C) (id : Id) : Option (Obj C) := (at? s.unfinished id).bind fun h => s.heap[h]?

/-- Pointers are valid and belong to one id only. -/
structure Inv (s : State C) : Prop where
  wf : WF s.unfinished
  valid : ∀ id h, at? s.unfinished id = some h → h < s.heap.length
  inj : ∀ id id' h, at? s.unfinished id = some h → at? s.unfinished id' = some h → id = id'

theorem inv_init : Inv ({} : State C) := ⟨wf_nil, by simp [at?, SMap.get?], by simp [at?, SMap.get?]⟩

/-- One message, as seen from outside. -/
structure Effect (k : Kind G C) (s : State C) (m : Msg G) (s' : State C) (r : Option Nat) : Prop where
  inv : Inv s'
  spec : Spec k (current s m.id) m (current s' m.id) (r.bind fun h => s'.heap[h]?)
  null : r = none → s' = s
  points : ∀ h, r = some h → h < s'.heap.length
  others : ∀ id, id ≠ m.id → at? s'.unfinished id = at? s.unfinished id ∧ current s' id = current s id
  same : ∀ h, at? s.unfinished m.id = some h → r = some h
  fresh : at? s.unfinished m.id = none → ∀ h, r = some h → h = s.heap.length ∧ at? s'.unfinished m.id = some h
  grow : s.heap.length ≤ s'.heap.length
  frame : ∀ h, h < s.heap.length → at? s.unfinished m.id ≠ some h → s'.heap[h]? = s.heap[h]?
  subset : ∀ id h, at? s'.unfinished id = some h → at? s.unfinished id = some h ∨ h = s.heap.length

theorem update_effect {k : Kind G C} {s s' : State C} {m : Msg G} {r : Option Nat} (hi : Inv s)
    (h : update k s m = some (s', r)) : Effect k s m s' r := by
  unfold update at h
  cases ha : at? s.unfinished m.id with
  | none =>
    simp only [ha] at h
    split at h
    · rename_i hm
      simp only [Option.bind_eq_bind, Option.bind_eq_some_iff, Option.some.injEq, Prod.mk.injEq] at h
      obtain ⟨c, hc, u, hu, rfl, rfl⟩ := h
      obtain ⟨w, -, q⟩ := insert_spec hi.wf hu
      have hcur : current s m.id = none := by simp [current, ha]
      refine ⟨⟨w, ?_, ?_⟩, ?_, by simp, by simp, ?_, by simp [ha], ?_, by simp, ?_, ?_⟩
      · intro id h hh
        rw [q] at hh
        split at hh
        · injection hh with hh; subst hh; simp
        · have := hi.valid _ _ hh; simp; omega
      · intro id id' h h1 h2
        rw [q] at h1 h2
        split at h1 <;> split at h2
        · rename_i a b; exact a.symm.trans b
        · injection h1 with h1; subst h1; exact absurd (hi.valid _ _ h2) (by omega)
        · injection h2 with h2; subst h2; exact absurd (hi.valid _ _ h1) (by omega)
        · exact hi.inj _ _ _ h1 h2
      · rw [hcur]
        have : current (⟨u, s.heap ++ [⟨m.num, m.finished, c⟩]⟩ : State C) m.id = some ⟨1, m.finished, c⟩ := by
          simp [current, q, hm.2]
        rw [this]
        simp only [Option.bind_some, List.getElem?_concat_length, hm.2]
        exact .create hm.1 hm.2 hc
      · intro id hid
        have e : at? u id = at? s.unfinished id := by rw [q, if_neg (Ne.symm hid)]
        refine ⟨e, ?_⟩
        simp only [current, e]
        cases hx : at? s.unfinished id with
        | none => rfl
        | some h =>
          have := hi.valid _ _ hx
          simp only [Option.bind_some, List.getElem?_append_left this]
      · intro _ h hh
        injection hh with hh
        subst hh
        exact ⟨rfl, by simp [q]⟩
      · intro h hh _
        simp only [List.getElem?_append_left hh]
      · intro id h hh
        simp only [q] at hh
        split at hh
        · injection hh with hh; exact Or.inr hh.symm
        · exact Or.inl hh
    · rename_i hm
      simp only [Option.some.injEq, Prod.mk.injEq] at h
      obtain ⟨rfl, rfl⟩ := h
      have hcur : current s m.id = none := by simp [current, ha]
      refine ⟨hi, ?_, by simp, by simp, by simp, by simp [ha], by simp, le_rfl, by simp, fun _ _ => Or.inl⟩
      rw [hcur]
      exact .ignore hm
  | some h0 =>
    have hlt := hi.valid _ _ ha
    simp only [ha] at h
    split at h
    case isFalse => cases h
    rename_i hk
    simp only [Option.bind_eq_bind, Option.bind_eq_some_iff] at h
    obtain ⟨o, ho, c, hc, h⟩ := h
    have hcur : current s m.id = some o := by simp [current, ha, ho]
    have hframe : ∀ x h, h < s.heap.length → some h0 ≠ some h → (s.heap.set h0 x)[h]? = s.heap[h]? := by
      intro x h _ hne
      rw [List.getElem?_set_ne (by intro e; exact hne (by rw [e]))]
    split at h
    · rename_i hf
      simp only [Option.bind_eq_bind, Option.bind_eq_some_iff, Option.some.injEq, Prod.mk.injEq] at h
      obtain ⟨u, hu, rfl, rfl⟩ := h
      obtain ⟨w, -, q⟩ := trim_spec hi.wf hu
      have hback : ∀ id h, at? u id = some h → at? s.unfinished id = some h := by
        intro id h hh; rw [q] at hh; split at hh; cases hh; exact hh
      refine ⟨⟨w, ?_, ?_⟩, ?_, by simp, by simp [hlt], ?_, by simp [ha], by simp [ha], by simp, ?_, ?_⟩
      · intro id h hh; simpa using hi.valid _ _ (hback _ _ hh)
      · intro id id' h h1 h2; exact hi.inj _ _ _ (hback _ _ h1) (hback _ _ h2)
      · rw [hcur]
        have : current (⟨u, s.heap.set h0 ⟨m.num, m.finished, c⟩⟩ : State C) m.id = none := by simp [current, q]
        rw [this]
        simp only [Option.bind_some, List.getElem?_set_self hlt, hf]
        exact .finish hf hc
      · intro id hid
        have e : at? u id = at? s.unfinished id := by rw [q, if_neg (Ne.symm hid)]
        refine ⟨e, ?_⟩
        simp only [current, e]
        cases hx : at? s.unfinished id with
        | none => rfl
        | some h =>
          simp only [Option.bind_some]
          apply hframe _ _ (hi.valid _ _ hx)
          intro e2
          injection e2 with e2
          subst e2
          exact hid (hi.inj _ _ _ hx ha)
      · intro h hh hne; exact hframe _ _ hh (by rwa [ha] at hne)
      · intro id h hh; exact Or.inl (hback _ _ hh)
    · rename_i hf
      simp only [Option.some.injEq, Prod.mk.injEq] at h
      obtain ⟨rfl, rfl⟩ := h
      refine ⟨⟨hi.wf, ?_, hi.inj⟩, ?_, by simp, by simp [hlt], ?_, by simp [ha], by simp [ha], by simp, ?_, fun _ _ => Or.inl⟩
      · intro id h hh; simpa using hi.valid _ _ hh
      · rw [hcur]
        have : current (⟨s.unfinished, s.heap.set h0 ⟨0, m.finished, c⟩⟩ : State C) m.id = some ⟨0, m.finished, c⟩ := by
          simp [current, ha, hlt]
        rw [this]
        simp only [Option.bind_some, List.getElem?_set_self hlt]
        rw [Bool.not_eq_true] at hf
        rw [hf]
        exact .update hf hc
      · intro id hid
        refine ⟨rfl, ?_⟩
        simp only [current]
        cases hx : at? s.unfinished id with
        | none => rfl
        | some h =>
          simp only [Option.bind_some]
          apply hframe _ _ (hi.valid _ _ hx)
          intro e2
          injection e2 with e2
          subst e2
          exact hid (hi.inj _ _ _ hx ha)
      · intro h hh hne; exact hframe _ _ hh (by rwa [ha] at hne)

theorem run_inv {k : Kind G C} {s s' : State C} {ms : List (Msg G)} {rs : List (Option Nat)} (hi : Inv s)
    (h : run k s ms = some (s', rs)) : Inv s' := by
  induction ms generalizing s rs with
  | nil => simp only [run, Option.some.injEq, Prod.mk.injEq] at h; exact h.1 ▸ hi
  | cons m ms ih =>
    simp only [run, Option.bind_eq_bind, Option.bind_eq_some_iff, Option.some.injEq, Prod.mk.injEq] at h
    obtain ⟨⟨s1, r⟩, h1, ⟨s2, rs2⟩, h2, rfl, -⟩ := h
    exact ih (update_effect hi h1).inv h2

/-- The states of the controller: reached from the empty controller by any messages. -/
def Reach (k : Kind G C) (s : State C) : Prop := ∃ ms rs, run k {} ms = some (s, rs)

theorem Reach.inv {k : Kind G C} {s : State C} (h : Reach k s) : Inv s := by
  obtain ⟨ms, rs, h⟩ := h
  exact run_inv inv_init h

theorem current_none_iff {s : State C} (hi : Inv s) {id : Id} : current s id = none ↔ at? s.unfinished id = none := by
  unfold current
  cases ha : at? s.unfinished id with
  | none => simp
  | some h => have := hi.valid _ _ ha; simp [this]

/-- An object the controller does not hold is never touched or handed out again. -/
theorem run_dead {k : Kind G C} {s s' : State C} {ms : List (Msg G)} {rs : List (Option Nat)} (hi : Inv s)
    (h : run k s ms = some (s', rs)) {p : Nat} (hp : p < s.heap.length) (hd : ∀ id, at? s.unfinished id ≠ some p) :
    s'.heap[p]? = s.heap[p]? ∧ some p ∉ rs := by
  induction ms generalizing s rs with
  | nil =>
    simp only [run, Option.some.injEq, Prod.mk.injEq] at h
    obtain ⟨rfl, rfl⟩ := h
    simp
  | cons m ms ih =>
    simp only [run, Option.bind_eq_bind, Option.bind_eq_some_iff, Option.some.injEq, Prod.mk.injEq] at h
    obtain ⟨⟨s1, r⟩, h1, ⟨s2, rs2⟩, h2, rfl, rfl⟩ := h
    have e := update_effect hi h1
    have hd1 : ∀ id, at? s1.unfinished id ≠ some p := by
      intro id hx
      rcases e.subset id p hx with hy | hy
      · exact hd id hy
      · omega
    obtain ⟨g1, g2⟩ := ih e.inv h2 (lt_of_lt_of_le hp e.grow) hd1
    refine ⟨g1.trans (e.frame p hp (hd _)), ?_⟩
    simp only [List.mem_cons, not_or]
    refine ⟨fun hr => ?_, g2⟩
    cases ha : at? s.unfinished m.id with
    | none => have := (e.fresh ha p hr.symm).1; omega
    | some q =>
      have := e.same q ha
      rw [this] at hr
      injection hr with hr
      exact hd m.id (by rw [ha, hr])

/-! ### Theorems -/

/-- **C50.** Every message has exactly the specified effect on the submap it is about, hands out the specified submap, and
leaves the submaps of all other ids alone. -/
theorem update_refines {k : Kind G C} {s s' : State C} {m : Msg G} {r : Option Nat} (hs : Reach k s)
    (h : update k s m = some (s', r)) :
    Spec k (current s m.id) m (current s' m.id) (r.bind fun h => s'.heap[h]?) ∧
      (∀ id, id ≠ m.id → current s' id = current s id) ∧ (r = none ↔ r.bind (fun h => s'.heap[h]?) = none) := by
  have e := update_effect hs.inv h
  refine ⟨e.spec, fun id hid => (e.others id hid).2, ?_⟩
  cases r with
  | none => simp
  | some x => simpa using e.points x rfl

/-- **C50.** A new submap is made exactly if the message is about one range data of a submap that is not being assembled. -/
theorem created_iff {k : Kind G C} {s s' : State C} {m : Msg G} {r : Option Nat} (hs : Reach k s)
    (h : update k s m = some (s', r)) :
    s'.heap.length = s.heap.length + 1 ↔ current s m.id = none ∧ m.rightKind = true ∧ m.num = 1 := by
  rw [current_none_iff hs.inv]
  unfold update at h
  cases ha : at? s.unfinished m.id with
  | none =>
    simp only [ha] at h
    split at h
    · rename_i hm
      simp only [Option.bind_eq_bind, Option.bind_eq_some_iff, Option.some.injEq, Prod.mk.injEq] at h
      obtain ⟨c, hc, u, hu, rfl, rfl⟩ := h
      simp [hm]
    · rename_i hm
      simp only [Option.some.injEq, Prod.mk.injEq] at h
      obtain ⟨rfl, rfl⟩ := h
      simp [hm]
  | some h0 =>
    simp only [ha] at h
    split at h
    case isFalse => cases h
    simp only [Option.bind_eq_bind, Option.bind_eq_some_iff] at h
    obtain ⟨o, ho, c, hc, h⟩ := h
    split at h
    · simp only [Option.bind_eq_bind, Option.bind_eq_some_iff, Option.some.injEq, Prod.mk.injEq] at h
      obtain ⟨u, hu, rfl, rfl⟩ := h
      simp
    · simp only [Option.some.injEq, Prod.mk.injEq] at h
      obtain ⟨rfl, rfl⟩ := h
      simp

/-- **C50.** A message about a submap that was never announced, other than its first range data, has no effect and hands out
nothing. -/
theorem unannounced_ignored {k : Kind G C} {s : State C} {m : Msg G} (hs : Reach k s) (hc : current s m.id = none)
    (hm : ¬ (m.rightKind = true ∧ m.num = 1)) : update k s m = some (s, none) := by
  have ha := (current_none_iff hs.inv).1 hc
  simp only [update, ha, if_neg hm]

/-- All messages about a submap hand out the same object until it is finished. -/
theorem same_object {k : Kind G C} {s s' : State C} {m : Msg G} {r : Option Nat} (hs : Reach k s)
    (h : update k s m = some (s', r)) {o : Nat} (ho : at? s.unfinished m.id = some o) :
    r = some o ∧ (m.finished = false → at? s'.unfinished m.id = some o) := by
  have e := update_effect hs.inv h
  refine ⟨e.same o ho, fun hf => ?_⟩
  unfold update at h
  simp only [ho, hf] at h
  split at h
  case isFalse => cases h
  simp only [Option.bind_eq_bind, Option.bind_eq_some_iff, Bool.false_eq_true, if_false, Option.some.injEq,
    Prod.mk.injEq] at h
  obtain ⟨-, -, -, -, rfl, -⟩ := h
  exact ho

/-- **C50 (partial).** A message that finishes a submap hands it out with the content of the message and forgets it: the
controller never changes it again. Missing: submaps that are finished by the message that creates them; these are not
forgotten (`finished_first_remembered`). -/
theorem finished_forgotten_partial {k : Kind G C} {s s' s'' : State C} {m : Msg G} {r : Option Nat} (hs : Reach k s)
    (h : update k s m = some (s', r)) (hc : current s m.id ≠ none) (hf : m.finished = true) {ms : List (Msg G)}
    {rs : List (Option Nat)} (hms : run k s' ms = some (s'', rs)) :
    ∃ p c, r = some p ∧ s''.heap[p]? = some ⟨m.num, true, c⟩ ∧
      (∃ old, (current s m.id).map Obj.content = some old ∧ k.apply old m.payload = some c) ∧
      some p ∉ rs ∧ current s' m.id = none := by
  have e := update_effect hs.inv h
  obtain ⟨o, ho⟩ := Option.ne_none_iff_exists'.1 hc
  have ha : ∃ p, at? s.unfinished m.id = some p := by
    rw [← Option.ne_none_iff_exists', ne_eq, ← current_none_iff hs.inv]; exact hc
  obtain ⟨p, hp⟩ := ha
  have hr := e.same p hp
  subst hr
  have hspec := e.spec
  rw [ho] at hspec
  generalize hx : current s' m.id = x at hspec
  generalize hy : (some p).bind (fun h => s'.heap[h]?) = y at hspec
  cases hspec with
  | update hf' => rw [hf] at hf'; cases hf'
  | @finish _ _ c _ hcc =>
    have hd : ∀ id, at? s'.unfinished id ≠ some p := by
      intro id hid
      by_cases he : id = m.id
      · subst he
        rw [(current_none_iff e.inv).1 hx] at hid
        cases hid
      · rw [(e.others id he).1] at hid
        exact he (hs.inv.inj _ _ _ hid hp)
    obtain ⟨g1, g2⟩ := run_dead e.inv hms (e.points p rfl) hd
    refine ⟨p, c, rfl, ?_, ⟨o.content, by rw [ho]; rfl, hcc⟩, g2, rfl⟩
    rw [g1]
    exact hy

/-- When a message aborts, for any state with valid pointers. -/
theorem update_none_iff_inv {k : Kind G C} {s : State C} {m : Msg G} (hi : Inv s) :
    update k s m = none ↔
      match current s m.id with
      | none => (m.rightKind = true ∧ m.num = 1) ∧ (k.apply k.fresh m.payload = none ∨ m.id.1 < 0 ∨ m.id.2 < 0)
      | some o => m.rightKind = false ∨ k.apply o.content m.payload = none := by
  have hins : ∀ n, at? s.unfinished m.id = none →
      (MapById.insert s.unfinished m.id n = none ↔ m.id.1 < 0 ∨ m.id.2 < 0) := by
    intro n ha
    simp only [MapById.insert]
    rw [at?_trajOrNew, ha]
    by_cases h1 : m.id.1 < 0 ∨ m.id.2 < 0 <;> simp [h1]
  have htrim : ∀ p, at? s.unfinished m.id = some p → ∃ u, trim s.unfinished m.id = some u := by
    intro p ha
    simp only [at?] at ha
    simp only [trim]
    cases hx : SMap.get? m.id.1 s.unfinished with
    | none => simp [hx] at ha
    | some tr =>
      simp only [hx, Option.bind_some] at ha
      simp only [ha]
      split <;> exact ⟨_, rfl⟩
  unfold update
  cases ha : at? s.unfinished m.id with
  | none =>
    rw [(current_none_iff hi).2 ha]
    simp only
    split
    · rename_i hm
      cases hc : k.apply k.fresh m.payload with
      | none => simp [hm]
      | some c =>
        have := hins s.heap.length ha
        cases hx : MapById.insert s.unfinished m.id s.heap.length with
        | none => simp [hm, this.1 hx]
        | some u =>
          have h2 : ¬ (m.id.1 < 0 ∨ m.id.2 < 0) := by rw [← this, hx]; simp
          simp [hm, not_or.1 h2]
    · rename_i hm
      simp [hm]
  | some p =>
    have hp := hi.valid _ _ ha
    have hcur : current s m.id = some s.heap[p] := by simp [current, ha, hp]
    rw [hcur]
    simp only [List.getElem?_eq_getElem hp]
    obtain ⟨u, hu⟩ := htrim p ha
    cases hk : m.rightKind <;> simp only [Bool.false_eq_true, if_false, if_true, true_or, reduceCtorEq, false_or]
    cases hc : k.apply s.heap[p].content m.payload with
    | none => simp [hc]
    | some c => cases hf : m.finished <;> simp [hu, hc]

/-- When a message aborts. -/
theorem update_none_iff {k : Kind G C} {s : State C} {m : Msg G} (hs : Reach k s) :
    update k s m = none ↔
      match current s m.id with
      | none => (m.rightKind = true ∧ m.num = 1) ∧ (k.apply k.fresh m.payload = none ∨ m.id.1 < 0 ∨ m.id.2 < 0)
      | some o => m.rightKind = false ∨ k.apply o.content m.payload = none := update_none_iff_inv hs.inv

/-- In two dimensions, a submap finished by a message with a grid has that grid. -/
theorem finished_grid {T : Type} {s s' s'' : State (Option T)} {m : Msg (Option (Option T))} {r : Option Nat}
    (hs : Reach (kind2d T) s) (h : update (kind2d T) s m = some (s', r)) (hc : current s m.id ≠ none)
    (hf : m.finished = true) {g : T} (hg : m.payload = some (some g)) {ms : List (Msg (Option (Option T)))}
    {rs : List (Option Nat)} (hms : run (kind2d T) s' ms = some (s'', rs)) :
    ∃ p, r = some p ∧ s''.heap[p]? = some ⟨m.num, true, some g⟩ := by
  obtain ⟨p, c, h1, h2, ⟨old, -, h3⟩, -⟩ := finished_forgotten_partial hs h hc hf hms
  rw [hg] at h3
  simp only [kind2d, Option.some.injEq] at h3
  exact ⟨p, h1, by rw [h2, h3]⟩

/-! ### Concrete messages -/

/-- A message of the right dimension. -/
def msg (id : Id) (num : Int) (finished : Bool) (grid : Option Nat) : Msg (Option (Option Nat)) :=
  ⟨id, true, num, finished, grid.map some⟩

/-- A submap is announced, updated and finished; another one has lost its beginning. -/
example : (run (kind2d Nat) {} [msg (0, 0) 1 false none, msg (0, 1) 7 false none, msg (0, 0) 2 false none,
    msg (0, 0) 3 true (some 42), msg (0, 0) 4 false none]).map (fun x => (x.1.heap, x.2)) =
    some ([⟨3, true, some 42⟩], [some 0, none, some 0, some 0, none]) := by decide +kernel

/-- **C50, negation.** A submap that is finished by the message that creates it is not forgotten: a later message changes the
submap that was handed out as finished. -/
theorem finished_first_remembered :
    (run (kind2d Nat) {} [msg (0, 0) 1 true (some 1)]).map (fun x => (x.1.heap, x.2)) =
      some ([⟨1, true, some 1⟩], [some 0]) ∧
    (run (kind2d Nat) {} [msg (0, 0) 1 true (some 1), msg (0, 0) 2 false (some 2)]).map (fun x => (x.1.heap, x.2)) =
      some ([⟨0, false, some 2⟩], [some 0, some 0]) := by
  constructor <;> decide +kernel

/-- **C50, negation.** A submap finished by a message without a grid is handed out without one. -/
theorem finished_incomplete :
    (run (kind2d Nat) {} [msg (0, 0) 1 false none, msg (0, 0) 2 true none]).map (fun x => (x.1.heap, x.2)) =
      some ([⟨2, true, none⟩], [some 0, some 0]) := by
  decide +kernel

end Verif.Controller
