import Verif.Props.ConstraintBuilder

/-!
# Counters of the constraint builder (C42)
-/

namespace Verif.Builder

variable {R : Type}

/-- The task is a notified finish-node task which has not completed. -/
def Open (s : State R) (t : Nat) : Prop :=
  t < s.numTasks ∧ s.kind t = .finishNode ∧ (s.status t = .scheduled ∨ s.status t = .running)

/-- The invariant. -/
structure CInv (s : State R) : Prop where
  open_dep : ∀ t, Open s t → t ∈ s.deps s.whenDoneTask ∨ s.whenDone = true ∧ t ∈ s.deps s.pending
  fresh : s.whenDone = true → s.deps s.whenDoneTask = []
  counts : ∃ l : List Nat, l.Nodup ∧ (∀ t, t ∈ l ↔ Open s t) ∧ s.numStarted = s.numFinished + l.length

theorem cinv_init : CInv (init R) := by
  refine ⟨?_, by simp [init], [], List.nodup_nil, ?_, rfl⟩
  · rintro t ⟨-, -, h⟩; simp [init] at h
  · intro t; simp [Open, init]

theorem open_addSearch {s : State R} (h : Inv s) (sm t : Nat) : Open (addSearch s sm) t ↔ Open s t := by
  have h1 := h.fin_lt
  simp only [Open, addSearch, dispatch]
  cases s.matcher sm <;> simp only [upd] <;> grind

set_option maxHeartbeats 1000000 in
theorem cinv_step {s t : State R} {a : Act R} (h : Inv s) (hc : CInv s) (ha : Enabled s a) (hdis : Disciplined s a)
    (he : exec s a = some t) : CInv t := by
  obtain ⟨c1, c0, l, c2, c3, c4⟩ := hc
  have f1 := h.fin_lt
  have f2 := h.wd_lt
  have f3 := h.fin_new
  have f4 := h.wd_new
  have f5 := h.fin_kind
  have f6 := h.wd_kind
  have f7 := h.pend
  cases a with
  | addSearch sm =>
    obtain rfl := Option.some.inj he
    refine ⟨?_, ?_, l, c2, fun x => (c3 x).trans (open_addSearch h sm x).symm, ?_⟩
    rotate_left
    · rw [show (addSearch s sm).whenDone = s.whenDone by simp only [addSearch, dispatch]; cases s.matcher sm <;> rfl]
      simp only [Disciplined] at hdis
      simp [hdis]
    rotate_left
    · intro x hx
      have := c1 x ((open_addSearch h sm x).1 hx)
      simp only [Disciplined] at hdis
      rw [hdis] at this
      simp only [Bool.false_eq_true, false_and, or_false] at this
      left
      simp only [addSearch, dispatch]
      have hne : s.whenDoneTask ≠ s.finishTask := by intro e; rw [e, f5] at f6; simp at f6
      cases s.matcher sm <;> simp only [upd] <;> grind
    · rw [show (addSearch s sm).numStarted = s.numStarted by simp only [addSearch, dispatch]; cases s.matcher sm <;> rfl,
        show (addSearch s sm).numFinished = s.numFinished by simp only [addSearch, dispatch]; cases s.matcher sm <;> rfl]
      exact c4
  | notifyEndOfNode =>
    obtain rfl := Option.some.inj he
    simp only [Disciplined] at hdis
    have key : ∀ x, Open (notifyEndOfNode s) x ↔ x = s.finishTask ∨ Open s x := by
      intro x
      simp only [Open, notifyEndOfNode, upd]
      grind
    refine ⟨?_, by simp [notifyEndOfNode, hdis], s.finishTask :: l, ?_, ?_, ?_⟩
    · intro x hx
      left
      rcases (key x).1 hx with rfl | hx
      · simp only [notifyEndOfNode, upd]; grind
      · have := c1 x hx
        simp only [notifyEndOfNode, upd]
        grind
    · refine List.nodup_cons.2 ⟨?_, c2⟩
      rw [c3]
      rintro ⟨-, -, e⟩
      rw [f3] at e; simp at e
    · intro x; rw [key, List.mem_cons, c3]
    · simp only [notifyEndOfNode, List.length_cons]; omega
  | callWhenDone =>
    simp only [Disciplined] at hdis
    rw [exec_callWhenDone hdis.1] at he
    obtain rfl := Option.some.inj he
    refine ⟨?_, by simp [upd], l, c2, ?_, c4⟩
    · intro x hx
      right
      refine ⟨rfl, ?_⟩
      have : Open s x := by
        simp only [Open, upd] at hx ⊢
        grind
      have := c1 x this
      simp only [upd]
      grind
    · intro x
      rw [c3]
      simp only [Open, upd]
      grind
  | deleteScanMatcher sm =>
    obtain rfl := Option.some.inj he
    exact ⟨c1, c0, l, c2, c3, c4⟩
  | begin x =>
    obtain ⟨a1, a2, a3⟩ := ha
    simp only [exec, beginTask] at he
    have key : ∀ y, Open { s with status := upd s.status x .running } y ↔ Open s y := by
      intro y
      simp only [Open, upd]
      grind
    have main : ∀ u : State R, u = { s with status := upd s.status x .running } → CInv u := by
      rintro u rfl
      exact ⟨fun y hy => c1 y ((key y).1 hy), c0, l, c2, fun y => (c3 y).trans (key y).symm, c4⟩
    split at he
    · exact main _ (Option.some.inj he).symm
    · split at he
      · exact main _ (Option.some.inj he).symm
      · simp at he
    · exact main _ (Option.some.inj he).symm
    · rename_i hk
      split at he
      · obtain rfl := Option.some.inj he
        refine ⟨?_, by simp, l, c2, fun y => (c3 y).trans (key y).symm, c4⟩
        intro y hy
        have hy' := (key y).1 hy
        rcases c1 y hy' with e | ⟨e1, e2⟩
        · exact Or.inl e
        · obtain ⟨-, rfl⟩ := h.pend' x a1 hk a2
          have := a3 y e2
          obtain ⟨-, -, e⟩ := hy'
          rw [this] at e
          simp at e
      · simp at he
  | finish x r =>
    obtain ⟨a1, a2⟩ := ha
    simp only [exec, finishTask] at he
    by_cases hk : s.kind x = .finishNode
    · simp only [hk] at he
      obtain rfl := Option.some.inj he
      have hx : x ∈ l := (c3 x).2 ⟨a1, hk, Or.inr a2⟩
      refine ⟨?_, c0, l.erase x, c2.erase x, ?_, ?_⟩
      · intro y hy
        apply c1 y
        simp only [Open, upd] at hy ⊢
        grind
      · intro y
        rw [c2.mem_erase_iff, c3]
        simp only [Open, upd]
        grind
      · have := List.length_erase_of_mem hx
        have := List.length_pos_of_mem hx
        simp only
        omega
    · have key : ∀ y, Open { s with status := upd s.status x .done } y ↔ Open s y := by
        intro y
        simp only [Open, upd]
        grind
      have hf : t.numStarted = s.numStarted ∧ t.numFinished = s.numFinished ∧ t.deps = s.deps ∧ t.whenDoneTask = s.whenDoneTask ∧
          t.whenDone = s.whenDone ∧ t.pending = s.pending ∧ t.kind = s.kind ∧ t.numTasks = s.numTasks ∧
          t.status = upd s.status x .done := by
        revert he
        cases hk' : s.kind x with
        | finishNode => exact absurd hk' hk
        | construct =>
          simp only
          split
          · intro he; obtain rfl := Option.some.inj he; simp
          · simp
        | whenDone => simp only; intro he; obtain rfl := Option.some.inj he; simp
        | search i m =>
          simp only
          split
          · cases r with
            | none => simp only; intro he; obtain rfl := Option.some.inj he; simp
            | some v =>
              simp only
              split
              · intro he; obtain rfl := Option.some.inj he; simp
              · simp
          · simp
      obtain ⟨g1, g2, g3, g4, g5, g6, g7, g8, g9⟩ := hf
      have key' : ∀ y, Open t y ↔ Open s y := by
        intro y
        rw [← key y]
        simp only [Open, g7, g8, g9]
      refine ⟨?_, by rw [g3, g4, g5]; exact c0, l, c2, fun y => (c3 y).trans (key' y).symm, by omega⟩
      intro y hy
      rw [g3, g4, g5, g6]
      exact c1 y ((key' y).1 hy)

/-- When the callback begins, all notified nodes have been counted as finished. -/
theorem counts_at_callback {s : State R} (h : Inv s) (hc : CInv s) {t : Nat}
    (ha : Enabled s (.begin t)) (hk : s.kind t = .whenDone) : s.numStarted = s.numFinished := by
  obtain ⟨a1, a2, a3⟩ := ha
  obtain ⟨c1, c0, l, c2, c3, c4⟩ := hc
  obtain ⟨hw, rfl⟩ := h.pend' t a1 hk a2
  have hreq := c0 hw
  have : l = [] := by
    refine List.eq_nil_iff_forall_not_mem.2 fun x hx => ?_
    have ho := (c3 x).1 hx
    rcases c1 x ho with e | ⟨-, e⟩
    · rw [hreq] at e; simp at e
    · have := a3 x e
      rcases ho.2.2 with e | e <;> rw [this] at e <;> simp at e
  rw [c4, this]; rfl

end Verif.Builder
