import Verif.PoseGraph
import Mathlib.Logic.Function.Basic

/-!
# Maps whose trajectories were filled by appending only

Lemmas about `Verif.MapById`: if all elements of a map were appended and none was trimmed, then the elements of a trajectory
are a list, with the indices 0, 1, ….
-/

namespace Verif.MapById

variable {D : Type}

/-- The elements of a list with their indices. -/
def enumFrom (i : Int) : List D → List (Int × D)
  | [] => []
  | d :: l => (i, d) :: enumFrom (i + 1) l

/-- The entry of a trajectory with the elements `l`. -/
def denseTraj : List D → Option (Traj D)
  | [] => none
  | d :: l => some { canAppend := true, data := enumFrom 0 (d :: l) }

/-- The trajectories of `m` consist of the lists `f t`. -/
def Dense (m : Map D) (f : Int → List D) : Prop := ∀ t, SMap.get? t m = denseTraj (f t)

theorem dense_nil : Dense ([] : Map D) (fun _ => []) := fun _ => rfl

theorem dense_congr {m : Map D} {f g : Int → List D} (h : Dense m f) (hfg : ∀ t, f t = g t) : Dense m g := fun t => by
  rw [← hfg t]; exact h t

theorem get?_enumFrom {l : List D} : ∀ {i j : Int}, SMap.get? j (enumFrom i l) = if i ≤ j then l[(j - i).toNat]? else none := by
  induction l with
  | nil => intro i j; simp [enumFrom, SMap.get?]
  | cons d l ih =>
    intro i j
    rw [enumFrom, SMap.get?]
    by_cases hij : i = j
    · subst hij; simp
    · simp only [ih, hij, if_false]
      by_cases h : i + 1 ≤ j
      · rw [if_pos h, if_pos (by omega)]
        have : (j - i).toNat = (j - (i + 1)).toNat + 1 := by omega
        rw [this, List.getElem?_cons_succ]
      · rw [if_neg h, if_neg (by omega)]

theorem put_enumFrom_end {l : List D} {d : D} : ∀ {i : Int}, SMap.put (i + l.length) d (enumFrom i l) = enumFrom i (l ++ [d]) := by
  induction l with
  | nil => intro i; simp [enumFrom, SMap.put]
  | cons x l ih =>
    intro i
    rw [List.cons_append, enumFrom, enumFrom, SMap.put]
    rw [if_neg (by simp only [List.length_cons]; omega), if_neg (by simp only [List.length_cons]; omega), ← ih]
    congr 2
    simp only [List.length_cons]
    omega

theorem put_enumFrom_set {l : List D} {d : D} : ∀ {i : Int} {k : Nat}, k < l.length →
    SMap.put (i + k) d (enumFrom i l) = enumFrom i (l.set k d) := by
  induction l with
  | nil => intro i k h; simp at h
  | cons x l ih =>
    intro i k h
    cases k with
    | zero => simp [enumFrom, SMap.put]
    | succ k =>
      rw [List.set_cons_succ, enumFrom, enumFrom, SMap.put]
      rw [if_neg (by omega), if_neg (by omega), ← ih (by simpa using h)]
      congr 2
      omega

theorem getLast?_enumFrom {l : List D} : ∀ {i : Int}, (enumFrom i l).getLast?.map (·.1) =
    if l = [] then none else some (i + l.length - 1) := by
  induction l with
  | nil => intro i; rfl
  | cons x l ih =>
    intro i
    cases l with
    | nil => simp [enumFrom]
    | cons y l =>
      have := ih (i := i + 1)
      rw [enumFrom, enumFrom, List.getLast?_cons_cons, ← enumFrom, this]
      simp
      omega

theorem nextIndex_enumFrom (l : List D) : nextIndex (enumFrom 0 l) = l.length := by
  have h := getLast?_enumFrom (l := l) (i := 0)
  unfold nextIndex
  cases hl : (enumFrom 0 l).getLast? with
  | none =>
    rw [hl] at h
    split at h
    · rename_i h0; simp [h0]
    · cases h
  | some e =>
    rw [hl] at h
    split at h
    · cases h
    · simp only [Option.map_some, Option.some.injEq] at h
      simp only [h]
      omega

theorem length_enumFrom {l : List D} : ∀ {i : Int}, (enumFrom i l).length = l.length := by
  induction l with
  | nil => intro i; rfl
  | cons x l ih => intro i; simp [enumFrom, ih]

theorem keys_enumFrom {l : List D} : ∀ {i : Int}, (enumFrom i l).map (·.1) = (List.range l.length).map (fun k : Nat => i + (k : Int)) := by
  induction l with
  | nil => intro i; rfl
  | cons x l ih =>
    intro i
    rw [enumFrom, List.map_cons, ih, List.length_cons, List.range_succ_eq_map, List.map_cons, List.map_map]
    simp only [Nat.cast_zero, Int.add_zero, List.cons.injEq, true_and]
    apply List.map_congr_left
    intro k _
    simp only [Function.comp, Nat.succ_eq_add_one]
    push_cast
    omega

theorem trajOrNew_dense {m : Map D} {f : Int → List D} (h : Dense m f) (t : Int) :
    trajOrNew m t = { canAppend := true, data := enumFrom 0 (f t) } := by
  unfold trajOrNew
  rw [h t]
  cases f t <;> rfl

theorem Dense.at? {m : Map D} {f : Int → List D} (h : Dense m f) (t j : Int) :
    at? m (t, j) = if 0 ≤ j then (f t)[j.toNat]? else none := by
  unfold MapById.at?
  rw [h t]
  cases hf : f t with
  | nil => simp [denseTraj]
  | cons d l =>
    have := get?_enumFrom (l := d :: l) (i := 0) (j := j)
    rw [Int.sub_zero] at this
    exact this

theorem Dense.at_nat {m : Map D} {f : Int → List D} (h : Dense m f) (t : Int) (k : Nat) :
    MapById.at? m (t, (k : Int)) = (f t)[k]? := by
  rw [h.at?, if_pos (by omega), Int.toNat_natCast]

theorem Dense.at_some {m : Map D} {f : Int → List D} (h : Dense m f) {t j : Int} {d : D} (hd : MapById.at? m (t, j) = some d) :
    ∃ k : Nat, j = k ∧ (f t)[k]? = some d := by
  rw [h.at?] at hd
  split at hd
  · exact ⟨j.toNat, by omega, hd⟩
  · cases hd

theorem dense_put {m : Map D} {f : Int → List D} (h : Dense m f) {t : Int} {l : List D} (hl : l ≠ []) :
    Dense (SMap.put t { canAppend := true, data := enumFrom 0 l } m) (Function.update f t l) := by
  intro u
  rw [SMap.get?_put]
  by_cases hu : t = u
  · subst hu
    rw [if_pos rfl, Function.update_self]
    cases l with
    | nil => exact absurd rfl hl
    | cons => rfl
  · rw [if_neg hu, Function.update_of_ne (Ne.symm hu)]
    exact h u

theorem Dense.append {m : Map D} {f : Int → List D} (h : Dense m f) {t : Int} (ht : 0 ≤ t) (d : D) :
    ∃ m', MapById.append m t d = some (m', (t, ((f t).length : Int))) ∧ Dense m' (Function.update f t (f t ++ [d])) := by
  unfold MapById.append
  rw [if_neg (by omega), trajOrNew_dense h]
  simp only [if_true, nextIndex_enumFrom]
  have := put_enumFrom_end (l := f t) (d := d) (i := 0)
  rw [Int.zero_add] at this
  rw [this]
  exact ⟨_, rfl, dense_put h (by simp)⟩

theorem Dense.assign {m : Map D} {f : Int → List D} (h : Dense m f) {t : Int} {k : Nat} (hk : k < (f t).length) (d : D) :
    ∃ m', MapById.assign m (t, (k : Int)) d = some m' ∧ Dense m' (Function.update f t ((f t).set k d)) := by
  unfold MapById.assign
  rw [h t]
  cases hf : f t with
  | nil => rw [hf] at hk; simp at hk
  | cons x l =>
    rw [hf] at hk
    simp only [denseTraj]
    rw [get?_enumFrom, if_pos (by omega), Int.sub_zero, Int.toNat_natCast, List.getElem?_eq_getElem hk]
    have := put_enumFrom_set (l := x :: l) (d := d) (i := 0) hk
    rw [Int.zero_add] at this
    rw [this]
    refine ⟨_, rfl, dense_put h ?_⟩
    intro h0
    have := congrArg List.length h0
    simp at this

theorem Dense.size {m : Map D} {f : Int → List D} (h : Dense m f) (t : Int) : sizeOfTrajectoryOrZero m t = (f t).length := by
  unfold sizeOfTrajectoryOrZero
  rw [h t]
  cases f t with
  | nil => rfl
  | cons x l => simp [denseTraj, length_enumFrom]

end Verif.MapById

namespace Verif.PoseGraph

open MapById

variable {D : Type}

theorem idsOf_dense {m : Map D} {f : Int → List D} (h : Dense m f) (t : Int) :
    idsOf m t = (List.range (f t).length).map (fun k : Nat => (t, (k : Int))) := by
  unfold idsOf
  rw [h t]
  cases hf : f t with
  | nil => rfl
  | cons x l =>
    have := keys_enumFrom (l := x :: l) (i := 0)
    simp only [denseTraj, Option.elim_some]
    have h2 : (enumFrom 0 (x :: l)).map (fun e => ((t, e.1) : Id)) = ((enumFrom 0 (x :: l)).map (·.1)).map (fun i => (t, i)) := by
      rw [List.map_map]; rfl
    rw [h2, this, List.map_map]
    simp only [Function.comp_def, Int.zero_add]

theorem lastId_dense {m : Map D} {f : Int → List D} (h : Dense m f) {t : Int} {k : Nat} (hk : (f t).length = k + 1) :
    lastId m t = some (t, (k : Int)) := by
  unfold lastId
  rw [idsOf_dense h, hk, List.range_succ]
  simp

end Verif.PoseGraph
