import Mathlib.Order.Defs.LinearOrder
import Mathlib.Data.List.Basic
import Mathlib.Data.List.Pairwise
import Mathlib.Data.List.Nodup

/-!
# `std::map` as a sorted association list

The list holds the elements in iteration order.  The functions are the `std::map` operations used by the
modelled code; `Sorted` is the class invariant of `std::map`.
-/

namespace Verif.SMap

set_option linter.unusedSectionVars false

variable {K V : Type} [LinearOrder K]

/-- Keys strictly increase along the iteration order. -/
def Sorted (l : List (K × V)) : Prop := l.Pairwise (fun a b => a.1 < b.1)

/-- `find` / `at` / `count`. -/
def get? (k : K) : List (K × V) → Option V
  | [] => none
  | (k', v) :: l => if k' = k then some v else get? k l

/-- `operator[]=`: insert at the sorted position or overwrite. -/
def put (k : K) (v : V) : List (K × V) → List (K × V)
  | [] => [(k, v)]
  | (k', v') :: l =>
    if k < k' then (k, v) :: (k', v') :: l
    else if k' = k then (k, v) :: l
    else (k', v') :: put k v l

/-- `erase(key)`. -/
def erase (k : K) (l : List (K × V)) : List (K × V) := l.filter (fun e => e.1 ≠ k)

theorem sorted_nil : Sorted ([] : List (K × V)) := List.Pairwise.nil

theorem Sorted.tail {e : K × V} {l : List (K × V)} (h : Sorted (e :: l)) : Sorted l := (List.pairwise_cons.1 h).2

theorem Sorted.head {e : K × V} {l : List (K × V)} (h : Sorted (e :: l)) : ∀ x ∈ l, e.1 < x.1 := (List.pairwise_cons.1 h).1

theorem get?_eq_none {k : K} {l : List (K × V)} : get? k l = none ↔ ∀ e ∈ l, e.1 ≠ k := by
  induction l with
  | nil => simp [get?]
  | cons e l ih =>
    obtain ⟨k', v⟩ := e
    simp only [get?]
    split
    · rename_i h; simp [h]
    · rename_i h; simp [ih, h]

theorem mem_of_get? {k : K} {v : V} {l : List (K × V)} (h : get? k l = some v) : (k, v) ∈ l := by
  induction l with
  | nil => simp [get?] at h
  | cons e l ih =>
    obtain ⟨k', v'⟩ := e
    simp only [get?] at h
    split at h
    · rename_i hk; simp only [Option.some.injEq] at h; subst hk; subst h; exact List.mem_cons_self
    · exact List.mem_cons_of_mem _ (ih h)

theorem get?_of_mem {k : K} {v : V} {l : List (K × V)} (hs : Sorted l) (h : (k, v) ∈ l) : get? k l = some v := by
  induction l with
  | nil => cases h
  | cons e l ih =>
    obtain ⟨k', v'⟩ := e
    simp only [get?]
    rcases List.mem_cons.1 h with h' | h'
    · simp only [Prod.mk.injEq] at h'
      rw [if_pos h'.1.symm, h'.2]
    · have := hs.head _ h'
      rw [if_neg (ne_of_lt this)]
      exact ih hs.tail h'

theorem get?_iff_mem {k : K} {v : V} {l : List (K × V)} (hs : Sorted l) : get? k l = some v ↔ (k, v) ∈ l :=
  ⟨mem_of_get?, get?_of_mem hs⟩

theorem mem_put {k : K} {v : V} {l : List (K × V)} {e : K × V} (h : e ∈ put k v l) : e = (k, v) ∨ e ∈ l := by
  induction l with
  | nil => simpa [put] using h
  | cons e' l ih =>
    obtain ⟨k', v'⟩ := e'
    simp only [put] at h
    split at h
    · simpa using h
    · split at h
      · rcases List.mem_cons.1 h with h | h
        · exact Or.inl h
        · exact Or.inr (List.mem_cons_of_mem _ h)
      · rcases List.mem_cons.1 h with h | h
        · exact Or.inr (h ▸ List.mem_cons_self)
        · rcases ih h with h | h
          · exact Or.inl h
          · exact Or.inr (List.mem_cons_of_mem _ h)

theorem sorted_put {k : K} {v : V} {l : List (K × V)} (hs : Sorted l) : Sorted (put k v l) := by
  induction l with
  | nil => exact List.pairwise_singleton _ _
  | cons e' l ih =>
    obtain ⟨k', v'⟩ := e'
    simp only [put]
    split
    · rename_i h
      refine List.pairwise_cons.2 ⟨?_, hs⟩
      intro x hx
      rcases List.mem_cons.1 hx with rfl | hx
      · exact h
      · exact lt_trans h (hs.head _ hx)
    · split
      · rename_i h1 h2
        subst h2
        exact List.pairwise_cons.2 ⟨fun x hx => hs.head x hx, hs.tail⟩
      · rename_i h1 h2
        refine List.pairwise_cons.2 ⟨?_, ih hs.tail⟩
        intro x hx
        rcases mem_put hx with rfl | hx
        · exact lt_of_le_of_ne (not_lt.1 h1) h2
        · exact hs.head _ hx

theorem get?_put {k k' : K} {v : V} {l : List (K × V)} :
    get? k' (put k v l) = if k = k' then some v else get? k' l := by
  induction l with
  | nil => simp [put, get?]
  | cons e l ih =>
    obtain ⟨k2, v2⟩ := e
    simp only [put]
    split
    · simp only [get?]
    · split
      · rename_i h1 h2
        subst h2
        simp only [get?]
        split <;> rfl
      · rename_i h1 h2
        simp only [get?, ih]
        split
        · rename_i h3
          subst h3
          rw [if_neg (fun h => h2 h.symm)]
        · rfl

theorem sorted_erase {k : K} {l : List (K × V)} (hs : Sorted l) : Sorted (erase k l) := hs.filter _

theorem get?_erase {k k' : K} {l : List (K × V)} :
    get? k' (erase k l) = if k = k' then none else get? k' l := by
  induction l with
  | nil => simp [erase, get?]
  | cons e l ih =>
    obtain ⟨k2, v2⟩ := e
    simp only [erase, List.filter_cons] at ih ⊢
    by_cases h : k2 = k
    · subst h
      simp only [ne_eq, not_true, decide_false, Bool.false_eq_true, if_false, ih, get?]
      split
      · rfl
      · rfl
    · simp only [ne_eq, h, not_false_eq_true, decide_true, if_true, get?]
      split
      · rename_i h2
        subst h2
        rw [if_neg (fun e => h e.symm)]
      · exact ih

theorem mem_erase {k : K} {l : List (K × V)} {e : K × V} : e ∈ erase k l ↔ e ∈ l ∧ e.1 ≠ k := by
  simp [erase]

/-- Two sorted lists with the same lookups are equal. -/
theorem ext {l l' : List (K × V)} (h : Sorted l) (h' : Sorted l') (he : ∀ k, get? k l = get? k l') : l = l' := by
  induction l generalizing l' with
  | nil =>
    cases l' with
    | nil => rfl
    | cons e l' =>
      obtain ⟨k, v⟩ := e
      have := he k
      simp [get?] at this
  | cons e l ih =>
    obtain ⟨k, v⟩ := e
    cases l' with
    | nil =>
      have := he k
      simp [get?] at this
    | cons e' l' =>
      obtain ⟨k', v'⟩ := e'
      have hk : k = k' := by
        have h1 : (k, v) ∈ (k', v') :: l' := mem_of_get? (by rw [← he]; simp [get?])
        have h2 : (k', v') ∈ (k, v) :: l := mem_of_get? (by rw [he]; simp [get?])
        rcases List.mem_cons.1 h1 with h1 | h1
        · exact congrArg Prod.fst h1
        · rcases List.mem_cons.1 h2 with h2 | h2
          · exact (congrArg Prod.fst h2).symm
          · exact absurd (h'.head _ h1) (not_lt.2 (le_of_lt (h.head _ h2)))
      subst hk
      have hv : v = v' := by
        have := he k
        simpa [get?] using this
      subst hv
      congr 1
      refine ih h.tail h'.tail (fun x => ?_)
      by_cases hx : k = x
      · subst hx
        have e1 : get? k l = none := get?_eq_none.2 (fun e he => (ne_of_gt (h.head e he)))
        have e2 : get? k l' = none := get?_eq_none.2 (fun e he => (ne_of_gt (h'.head e he)))
        rw [e1, e2]
      · have := he x
        simpa [get?, hx] using this

end Verif.SMap
