import Verif.BlockingQueue

/-! # C07: the blocking queue is a bounded FIFO under every schedule -/

namespace Verif.BQ

set_option linter.unusedSectionVars false

variable {P α : Type} [DecidableEq P]

/-- Values that entered the queue according to the completed calls, in order. -/
def entered : List (P × Call α × Ret α) → List α
  | [] => []
  | (_, .push v, _) :: l => v :: entered l
  | (_, .pushWithTimeout v, .bool true) :: l => v :: entered l
  | _ :: l => entered l

/-- Values that left the queue according to the completed calls, in order. -/
def left : List (P × Call α × Ret α) → List α
  | [] => []
  | (_, .pop, .val v) :: l => v :: left l
  | (_, .popWithTimeout, .val v) :: l => v :: left l
  | _ :: l => left l

/-- What a call must return when the queue, seen as a sequence, holds `content`. -/
def Correct (cap : Nat) (content : List α) : Call α → Ret α → Prop
  | .push _, r => r = .unit ∧ (cap = 0 ∨ content.length < cap)
  | .pushWithTimeout _, r =>
    (r = .bool true ∧ (cap = 0 ∨ content.length < cap)) ∨ (r = .bool false ∧ cap ≠ 0 ∧ content.length = cap)
  | .pop, r => ∃ v, r = .val v ∧ content.head? = some v
  | .popWithTimeout, r => (∃ v, r = .val v ∧ content.head? = some v) ∨ (r = .null ∧ content = [])
  | .peekWithTimeout, r => (∃ v, r = .val v ∧ content.head? = some v) ∨ (r = .null ∧ content = [])
  | .peek, r => (∃ v, r = .val v ∧ content.head? = some v) ∨ (r = .null ∧ content = [])
  | .size, r => r = .num content.length
  | .waitUntilEmpty, r => r = .unit ∧ content = []

theorem entered_append (l l' : List (P × Call α × Ret α)) : entered (l ++ l') = entered l ++ entered l' := by
  fun_induction entered l with
  | case1 => rfl
  | case2 => simp_all [entered]
  | case3 => simp_all [entered]
  | case4 x l h1 h2 ih =>
    obtain ⟨p, c, r⟩ := x
    cases c <;> cases r <;> simp_all [entered]

theorem left_append (l l' : List (P × Call α × Ret α)) : left (l ++ l') = left l ++ left l' := by
  fun_induction left l with
  | case1 => rfl
  | case2 => simp_all [left]
  | case3 => simp_all [left]
  | case4 x l h1 h2 ih =>
    obtain ⟨p, c, r⟩ := x
    cases c <;> cases r <;> simp_all [left]

theorem notFull_iff (cap : Nat) (items : List α) : notFull cap items = true ↔ cap = 0 ∨ items.length < cap := by
  simp [notFull]

/-- One completed call. -/
theorem serve_spec {cap : Nat} {items items' : List α} {p : P} {c : Call α} {r : Ret α}
    (hb : cap ≠ 0 → items.length ≤ cap) (h : serve cap items c = some (items', r)) :
    items ++ entered [(p, c, r)] = left [(p, c, r)] ++ items' ∧ (cap ≠ 0 → items'.length ≤ cap) ∧ Correct cap items c r := by
  cases c with
  | push v =>
    simp only [serve] at h
    split at h
    · rename_i hf
      rw [notFull_iff] at hf
      simp only [Option.some.injEq, Prod.mk.injEq] at h
      obtain ⟨rfl, rfl⟩ := h
      simp [entered, left, Correct, hf]; omega
    · cases h
  | pushWithTimeout v =>
    simp only [serve] at h
    split at h
    · rename_i hf
      rw [notFull_iff] at hf
      simp only [Option.some.injEq, Prod.mk.injEq] at h
      obtain ⟨rfl, rfl⟩ := h
      simp [entered, left, Correct, hf]; omega
    · cases h
  | pop =>
    cases items with
    | nil => simp [serve] at h
    | cons v rest =>
      simp only [serve, Option.some.injEq, Prod.mk.injEq] at h
      obtain ⟨rfl, rfl⟩ := h
      simp [entered, left, Correct]; intro hc; have := hb hc; simp at this; omega
  | popWithTimeout =>
    cases items with
    | nil => simp [serve] at h
    | cons v rest =>
      simp only [serve, Option.some.injEq, Prod.mk.injEq] at h
      obtain ⟨rfl, rfl⟩ := h
      simp [entered, left, Correct]; intro hc; have := hb hc; simp at this; omega
  | peekWithTimeout =>
    cases items with
    | nil => simp [serve] at h
    | cons v rest =>
      simp only [serve, Option.some.injEq, Prod.mk.injEq] at h
      obtain ⟨rfl, rfl⟩ := h
      simp [entered, left, Correct]; simpa using hb
  | peek =>
    cases items with
    | nil =>
      simp only [serve, Option.some.injEq, Prod.mk.injEq] at h
      obtain ⟨rfl, rfl⟩ := h
      simp [entered, left, Correct]
    | cons v rest =>
      simp only [serve, Option.some.injEq, Prod.mk.injEq] at h
      obtain ⟨rfl, rfl⟩ := h
      simp [entered, left, Correct]; simpa using hb
  | size =>
    simp only [serve, Option.some.injEq, Prod.mk.injEq] at h
    obtain ⟨rfl, rfl⟩ := h
    simp [entered, left, Correct]; exact hb
  | waitUntilEmpty =>
    simp only [serve] at h
    split at h
    · rename_i he
      simp only [Option.some.injEq, Prod.mk.injEq] at h
      obtain ⟨rfl, rfl⟩ := h
      simp at he
      simp [entered, left, Correct, he]
    · cases h

/-- One timed out call. -/
theorem timeout_spec {cap : Nat} {items : List α} {p : P} {c : Call α} {r : Ret α}
    (hb : cap ≠ 0 → items.length ≤ cap) (h : serve cap items c = none) (ht : timeout c = some r) :
    entered [(p, c, r)] = [] ∧ left [(p, c, r)] = [] ∧ Correct cap items c r := by
  cases c with
  | pushWithTimeout v =>
    simp only [timeout, Option.some.injEq] at ht
    subst ht
    simp only [serve] at h
    split at h
    · cases h
    · rename_i hf
      rw [notFull_iff, not_or] at hf
      have := hb hf.1
      refine ⟨rfl, rfl, Or.inr ⟨rfl, hf.1, by omega⟩⟩
  | popWithTimeout =>
    simp only [timeout, Option.some.injEq] at ht
    subst ht
    cases items with
    | nil => simp [entered, left, Correct]
    | cons => simp [serve] at h
  | peekWithTimeout =>
    simp only [timeout, Option.some.injEq] at ht
    subst ht
    cases items with
    | nil => simp [entered, left, Correct]
    | cons => simp [serve] at h
  | _ => simp [timeout] at ht

theorem correct_snoc {cap : Nat} {l : List (P × Call α × Ret α)} {e : P × Call α × Ret α} {items : List α}
    (hl : entered l = left l ++ items)
    (h : ∀ l1 l2 p c r, l = l1 ++ (p, c, r) :: l2 → Correct cap ((entered l1).drop (left l1).length) c r)
    (he : Correct cap items e.2.1 e.2.2) :
    ∀ l1 l2 p c r, l ++ [e] = l1 ++ (p, c, r) :: l2 → Correct cap ((entered l1).drop (left l1).length) c r := by
  intro l1 l2 p c r hh
  rcases List.eq_nil_or_concat l2 with rfl | ⟨l', b, rfl⟩
  · have := List.append_inj' hh rfl
    simp only [List.cons.injEq, and_true] at this
    obtain ⟨rfl, rfl⟩ := this
    rw [hl]; simpa using he
  · have h' : l ++ [e] = (l1 ++ (p, c, r) :: l') ++ [b] := by simpa using hh
    exact h _ _ _ _ _ (List.append_inj' h' rfl).1

/-- **C07.** In every reachable state: the values that entered are, in order, those that left followed by
those stored (first in first out, nothing lost or duplicated); the size bound holds; and every call
returned what a sequential queue would have returned at the position of its critical section: in
particular a timed operation that reported failure found the queue full (or empty) and had no effect. -/
theorem bounded_fifo {cap : Nat} {s : State P α} (h : Reach cap s) :
    entered s.log = left s.log ++ s.items ∧ (cap ≠ 0 → s.items.length ≤ cap) ∧
    ∀ l1 l2 p c r, s.log = l1 ++ (p, c, r) :: l2 → Correct cap ((entered l1).drop (left l1).length) c r := by
  induction h with
  | init => simp [init, entered, left]
  | step _ hs ih =>
    obtain ⟨h1, h2, h3⟩ := ih
    cases hs with
    | invoke p c hp => exact ⟨h1, h2, h3⟩
    | serve p c items' r hp hsv =>
      obtain ⟨k1, k2, k3⟩ := serve_spec (p := p) h2 hsv
      refine ⟨?_, k2, correct_snoc h1 h3 k3⟩
      rw [entered_append, left_append, h1, List.append_assoc, k1, List.append_assoc]
    | timeout p c r hp hsv ht =>
      obtain ⟨k1, k2, k3⟩ := timeout_spec (p := p) h2 hsv ht
      refine ⟨?_, h2, correct_snoc h1 h3 k3⟩
      rw [entered_append, left_append, h1, k1, k2]; simp

/-- A failed timed operation leaves the queue unchanged, and only a timed operation can fail. -/
theorem failure_changes_nothing {cap : Nat} {s s' : State P α} (hs : Step cap s s') {p : P} {c : Call α}
    {r : Ret α} (hl : s'.log = s.log ++ [(p, c, r)]) (hf : r = .bool false ∨ r = .null) : s'.items = s.items := by
  cases hs with
  | invoke p c hp => simp at hl
  | serve p c items' r hp hsv =>
    simp only [List.append_cancel_left_eq, List.cons.injEq, Prod.mk.injEq, and_true] at hl
    obtain ⟨rfl, rfl, rfl⟩ := hl
    cases c <;> cases hi : s.items <;> rw [hi] at hsv <;> simp only [serve] at hsv <;> (try split at hsv) <;>
      simp_all <;> rcases hf with rfl | rfl <;> simp_all
  | timeout p c r hp hsv ht => rfl

/-- A blocked `Push` and a blocked `Pop` cannot coexist: one of them can proceed.  A blocked
`WaitUntilEmpty` coexists only with a possible `Pop`. -/
theorem no_mutual_blocking {cap : Nat} {s : State P α} (v : α) :
    (serve cap s.items (.push v)).isSome ∨ (serve cap s.items .pop).isSome := by
  cases hi : s.items with
  | nil =>
    left
    have : notFull cap ([] : List α) = true := by
      rw [notFull_iff]; simp; omega
    simp [serve, this]
  | cons w r => right; simp [serve]

/-- Witness: capacity 1, a second timed push fails, then the first value is popped. -/
example : ∃ s : State (Fin 2) Nat, Reach 1 s ∧ s.items = [] ∧
    s.log = [(0, .push 7, .unit), (1, .pushWithTimeout 8, .bool false), (1, .pop, .val 7)] := by
  have e0 := Reach.init (P := Fin 2) (α := Nat) (cap := 1)
  have e1 := e0.step (.invoke 0 (.push 7) rfl)
  have e2 := e1.step (.serve 0 (.push 7) [7] .unit rfl rfl)
  have e3 := e2.step (.invoke 1 (.pushWithTimeout 8) rfl)
  have e4 := e3.step (.timeout 1 (.pushWithTimeout 8) (.bool false) rfl rfl rfl)
  have e5 := e4.step (.invoke 1 .pop rfl)
  have e6 := e5.step (.serve 1 .pop [] (.val 7) rfl rfl)
  exact ⟨_, e6, rfl, rfl⟩

end Verif.BQ
