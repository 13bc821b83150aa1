import Verif.OverlappingTrimmer
import Mathlib.Data.List.Count
import Mathlib.Data.List.Perm.Basic
import Mathlib.Data.List.Perm.Subperm

/-!
# Lemmas about the trimming of overlapping submaps
-/

namespace Verif.Overlap

open Verif

set_option linter.unusedSectionVars false

variable {I N C : Type} [LinearOrder I] [LinearOrder N] [LinearOrder C]

/-! ### Counting -/

theorem increment_fold (l : List (I × Int)) : ∀ m : List (I × Nat), SMap.Sorted m →
    SMap.Sorted (l.foldl increment m) ∧ ∀ i, SMap.get? i (l.foldl increment m) =
      if (l.map Prod.fst).count i = 0 then SMap.get? i m
      else some (((SMap.get? i m).getD 0 + (l.map Prod.fst).count i) % 65536) := by
  induction l with
  | nil => intro m hm; exact ⟨hm, by simp⟩
  | cons e l ih =>
    intro m hm
    have hs : SMap.Sorted (increment m e) := SMap.sorted_put hm
    obtain ⟨h1, h2⟩ := ih _ hs
    refine ⟨h1, ?_⟩
    intro i
    rw [List.foldl_cons, h2 i]
    simp only [increment, SMap.get?_put, List.map_cons]
    by_cases hi : e.1 = i
    · subst hi
      simp only [if_true, List.count_cons_self, Option.getD_some]
      by_cases h0 : (l.map Prod.fst).count e.1 = 0
      · simp [h0]
      · rw [if_neg h0, if_neg (by omega)]
        congr 1
        omega
    · rw [List.count_cons_of_ne hi, if_neg hi]

/-- How often a submap is counted. -/
def hits (sort : List (I × Int) → List (I × Int)) (n : Nat) (grid : List (C × List (I × Int))) (i : I) : Nat :=
  (grid.map fun cell => ((kept sort n cell.2).map Prod.fst).count i).sum

theorem hits_flat (sort : List (I × Int) → List (I × Int)) (n : Nat) (grid : List (C × List (I × Int))) (i : I) :
    ((grid.flatMap fun cell => kept sort n cell.2).map Prod.fst).count i = hits sort n grid i := by
  induction grid with
  | nil => rfl
  | cons a l ih =>
    simp only [List.flatMap_cons, List.map_append, List.count_append, ih, hits, List.map_cons, List.sum_cons]

theorem fold_fold (sort : List (I × Int) → List (I × Int)) (n : Nat) (grid : List (C × List (I × Int))) :
    ∀ m : List (I × Nat), grid.foldl (fun counts cell => (kept sort n cell.2).foldl increment counts) m =
      (grid.flatMap fun cell => kept sort n cell.2).foldl increment m := by
  induction grid with
  | nil => intro m; rfl
  | cons a l ih =>
    intro m
    rw [List.foldl_cons, List.flatMap_cons, List.foldl_append, ih]

theorem mem_setDifference : ∀ (l m : List I), l.Pairwise (· < ·) → m.Pairwise (· < ·) →
    ∀ i, i ∈ setDifference l m ↔ i ∈ l ∧ i ∉ m
  | [], m, _, _, i => by simp [setDifference]
  | a :: l, [], _, _, i => by simp [setDifference]
  | a :: l, b :: m, hl, hm, i => by
    rw [setDifference]
    have hl' := List.pairwise_cons.1 hl
    have hm' := List.pairwise_cons.1 hm
    split
    · rename_i hab
      rw [List.mem_cons, mem_setDifference l (b :: m) hl'.2 hm i, List.mem_cons (a := i) (l := l)]
      constructor
      · rintro (rfl | ⟨h1, h2⟩)
        · refine ⟨Or.inl rfl, ?_⟩
          intro h
          rcases List.mem_cons.1 h with rfl | h
          · exact lt_irrefl _ hab
          · exact lt_asymm hab (hm'.1 _ h)
        · exact ⟨Or.inr h1, h2⟩
      · rintro ⟨rfl | h1, h2⟩
        · exact Or.inl rfl
        · exact Or.inr ⟨h1, h2⟩
    · split
      · rename_i hab hba
        rw [mem_setDifference (a :: l) m hl hm'.2 i]
        constructor
        · rintro ⟨h1, h2⟩
          refine ⟨h1, ?_⟩
          intro h
          rcases List.mem_cons.1 h with rfl | h
          · rcases List.mem_cons.1 h1 with rfl | h1
            · exact lt_irrefl _ hba
            · exact lt_asymm hba (hl'.1 _ h1)
          · exact h2 h
        · rintro ⟨h1, h2⟩
          exact ⟨h1, fun h => h2 (List.mem_cons_of_mem _ h)⟩
      · rename_i hab hba
        have he : a = b := le_antisymm (not_lt.1 hba) (not_lt.1 hab)
        subst he
        rw [mem_setDifference l m hl'.2 hm'.2 i]
        constructor
        · rintro ⟨h1, h2⟩
          refine ⟨List.mem_cons_of_mem _ h1, ?_⟩
          intro h
          rcases List.mem_cons.1 h with rfl | h
          · exact lt_irrefl _ (hl'.1 _ h1)
          · exact h2 h
        · rintro ⟨h1, h2⟩
          have h3 : i ≠ a ∧ i ∉ m := by simpa using h2
          rcases List.mem_cons.1 h1 with h | h
          · exact absurd h h3.1
          · exact ⟨h, h3.2⟩
  termination_by l m => l.length + m.length

/-- What `FindSubmapIdsToTrim` selects, without any assumption. -/
theorem mem_find (sort : List (I × Int) → List (I × Int)) (grid : List (C × List (I × Int))) {ids : List I}
    (hids : ids.Pairwise (· < ·)) (n min : Nat) (i : I) : i ∈ findSubmapIdsToTrim sort grid ids n min ↔
      i ∈ ids ∧ (hits sort n grid i = 0 ∨ hits sort n grid i % 65536 < min) := by
  unfold findSubmapIdsToTrim
  simp only
  rw [fold_fold]
  obtain ⟨h1, h2⟩ := increment_fold (grid.flatMap fun cell => kept sort n cell.2) [] SMap.sorted_nil
  generalize hc : (grid.flatMap fun cell => kept sort n cell.2).foldl increment [] = counts at *
  have hk : (counts.filterMap fun e => if e.2 < min then none else some e.1).Pairwise (· < ·) := by
    refine List.Pairwise.filterMap _ ?_ h1
    intro a b hab x hx y hy
    split at hx
    · cases hx
    · split at hy
      · cases hy
      · injection hx with hx; injection hy with hy; subst hx; subst hy; exact hab
  rw [mem_setDifference _ _ hids hk]
  refine and_congr_right fun _ => ?_
  have h3 := h2 i
  rw [hits_flat] at h3
  rw [List.mem_filterMap]
  constructor
  · intro h
    by_cases h0 : hits sort n grid i = 0
    · exact Or.inl h0
    · right
      rw [if_neg h0] at h3
      by_contra hlt
      apply h
      have h4 : ((SMap.get? i ([] : List (I × Nat))).getD 0 + hits sort n grid i) % 65536 = hits sort n grid i % 65536 := by
        simp [SMap.get?]
      rw [h4] at h3
      exact ⟨_, SMap.mem_of_get? h3, if_neg hlt⟩
  · rintro h ⟨⟨j, c⟩, hj, he⟩
    simp only at he
    split at he
    · cases he
    · rename_i hge
      injection he with he
      subst he
      have h4 := SMap.get?_of_mem h1 hj
      rw [h3] at h4
      split at h4
      · simp [SMap.get?] at h4
      · rename_i h0
        simp only [SMap.get?, Option.getD_none, Nat.zero_add, Option.some.injEq] at h4
        rcases h with h | h
        · exact h0 h
        · omega

/-! ### The coverage grid -/

/-- The entries of a cell. -/
def look (c : C) (grid : List (C × List (I × Int))) : List (I × Int) := (SMap.get? c grid).getD []

theorem addPoints (id : I) (time : Int) (cells : List C) : ∀ grid : List (C × List (I × Int)), SMap.Sorted grid →
    (∀ e ∈ grid, e.2 ≠ []) →
    SMap.Sorted (cells.foldl (addPoint id time) grid) ∧ (∀ e ∈ cells.foldl (addPoint id time) grid, e.2 ≠ []) ∧
    ∀ c, look c (cells.foldl (addPoint id time) grid) = look c grid ++ List.replicate (cells.count c) (id, time) := by
  induction cells with
  | nil => intro grid h1 h2; exact ⟨h1, h2, by simp⟩
  | cons a l ih =>
    intro grid h1 h2
    have h3 : ∀ e ∈ addPoint id time grid a, e.2 ≠ [] := by
      intro e he
      rcases SMap.mem_put he with rfl | he
      · simp
      · exact h2 e he
    obtain ⟨g1, g2, g3⟩ := ih (addPoint id time grid a) (SMap.sorted_put h1) h3
    refine ⟨g1, g2, ?_⟩
    intro c
    rw [List.foldl_cons, g3 c]
    simp only [look, addPoint, SMap.get?_put]
    by_cases hc : a = c
    · subst hc
      simp [List.count_cons_self, List.replicate_succ]
    · rw [if_neg hc, List.count_cons_of_ne hc]

/-- The submaps that are entered into the coverage grid, with their times. -/
def eligible (freshness : List (I × Int)) (data : List (Submap I C)) : List (Submap I C × Int) :=
  data.filterMap fun s => if s.finished then (SMap.get? s.id freshness).map fun t => (s, t) else none

theorem addSubmaps_fold (freshness : List (I × Int)) (data : List (Submap I C)) :
    ∀ acc : List I × List (C × List (I × Int)), SMap.Sorted acc.2 → (∀ e ∈ acc.2, e.2 ≠ []) →
    (data.foldl (addSubmap freshness) acc).1 = acc.1 ++ (eligible freshness data).map (fun e => e.1.id) ∧
    SMap.Sorted (data.foldl (addSubmap freshness) acc).2 ∧ (∀ e ∈ (data.foldl (addSubmap freshness) acc).2, e.2 ≠ []) ∧
    ∀ c, look c (data.foldl (addSubmap freshness) acc).2 = look c acc.2 ++
      (eligible freshness data).flatMap fun e => List.replicate (e.1.cells.count c) (e.1.id, e.2) := by
  induction data with
  | nil => intro acc h1 h2; exact ⟨by simp [eligible], h1, h2, by simp [eligible]⟩
  | cons s l ih =>
    intro acc h1 h2
    rw [List.foldl_cons]
    cases hf : SMap.get? s.id freshness with
    | none =>
      have he : eligible freshness (s :: l) = eligible freshness l := by simp [eligible, hf]
      have ha : addSubmap freshness acc s = acc := by simp [addSubmap, hf]
      rw [he, ha]
      exact ih acc h1 h2
    | some t =>
      by_cases hfin : s.finished = true
      · have he : eligible freshness (s :: l) = (s, t) :: eligible freshness l := by simp [eligible, hf, hfin]
        have ha : addSubmap freshness acc s = (acc.1 ++ [s.id], s.cells.foldl (addPoint s.id t) acc.2) := by
          simp [addSubmap, hf, hfin]
        rw [he, ha]
        obtain ⟨g1, g2, g3⟩ := addPoints s.id t s.cells acc.2 h1 h2
        obtain ⟨k1, k2, k3, k4⟩ := ih (acc.1 ++ [s.id], s.cells.foldl (addPoint s.id t) acc.2) g1 g2
        refine ⟨by rw [k1]; simp, k2, k3, ?_⟩
        intro c
        rw [k4 c, g3 c]
        simp
      · have he : eligible freshness (s :: l) = eligible freshness l := by simp [eligible, hfin]
        have ha : addSubmap freshness acc s = acc := by simp [addSubmap, hf, hfin]
        rw [he, ha]
        exact ih acc h1 h2

theorem addSubmaps_spec (freshness : List (I × Int)) (data : List (Submap I C)) :
    (addSubmaps freshness data).1 = (eligible freshness data).map (fun e => e.1.id) ∧
    SMap.Sorted (addSubmaps freshness data).2 ∧ (∀ e ∈ (addSubmaps freshness data).2, e.2 ≠ []) ∧
    ∀ c, look c (addSubmaps freshness data).2 =
      (eligible freshness data).flatMap fun e => List.replicate (e.1.cells.count c) (e.1.id, e.2) := by
  have h := addSubmaps_fold freshness data ([], []) SMap.sorted_nil (by simp)
  simpa [addSubmaps, look, SMap.get?] using h

theorem eligible_sorted (freshness : List (I × Int)) {data : List (Submap I C)}
    (hd : data.Pairwise fun a b => a.id < b.id) :
    (eligible freshness data).Pairwise fun a b => a.1.id < b.1.id := by
  refine List.Pairwise.filterMap _ ?_ hd
  intro a b hab x hx y hy
  split at hx
  · split at hy
    · simp only [Option.map_eq_some_iff] at hx hy
      obtain ⟨_, -, rfl⟩ := hx
      obtain ⟨_, -, rfl⟩ := hy
      exact hab
    · cases hy
  · cases hx

theorem mem_eligible {freshness : List (I × Int)} {data : List (Submap I C)} {e : Submap I C × Int} :
    e ∈ eligible freshness data ↔ e.1 ∈ data ∧ e.1.finished = true ∧ SMap.get? e.1.id freshness = some e.2 := by
  unfold eligible
  rw [List.mem_filterMap]
  constructor
  · rintro ⟨s, hs, h⟩
    split at h
    · rename_i hf
      rw [Option.map_eq_some_iff] at h
      obtain ⟨t, ht, rfl⟩ := h
      exact ⟨hs, hf, ht⟩
    · cases h
  · rintro ⟨h1, h2, h3⟩
    exact ⟨e.1, h1, by rw [if_pos h2, h3]; rfl⟩

/-! ### The freshest entries -/

/-- What is known of `std::sort` with the comparison of lines 159-162: the result has the same entries and no entry is before
one with a later time. -/
def Sorts (sort : List (I × Int) → List (I × Int)) : Prop :=
  ∀ l, (sort l).Perm l ∧ (sort l).Pairwise fun a b => b.2 ≤ a.2

theorem mem_take_sorted {e : I × Int} : ∀ {l : List (I × Int)} (n : Nat), l.Pairwise (fun a b => b.2 < a.2) → e ∈ l →
    (e ∈ l.take n ↔ (l.filter fun x => decide (e.2 < x.2)).length < n)
  | [], _, _, h => by cases h
  | a :: l, 0, _, _ => by simp
  | a :: l, n + 1, hp, h => by
    have hp' := List.pairwise_cons.1 hp
    rw [List.take_succ_cons, List.mem_cons]
    rcases List.mem_cons.1 h with rfl | h
    · have : (e :: l).filter (fun x => decide (e.2 < x.2)) = [] := by
        rw [List.filter_eq_nil_iff]
        intro x hx
        rcases List.mem_cons.1 hx with rfl | hx
        · simp
        · have := hp'.1 x hx
          simp; omega
      rw [this]
      simp
    · have hlt := hp'.1 e h
      have hne : e ≠ a := by rintro rfl; omega
      rw [List.filter_cons, if_pos (by simpa using hlt), List.length_cons, Nat.succ_lt_succ_iff,
        ← mem_take_sorted n hp'.2 h]
      simp [hne]

theorem mem_kept {sort : List (I × Int) → List (I × Int)} (hs : Sorts sort) {l : List (I × Int)} {e : I × Int} (n : Nat)
    (hd : l.Pairwise fun a b => a.2 ≠ b.2) (he : e ∈ l) :
    e ∈ kept sort n l ↔ (l.filter fun x => decide (e.2 < x.2)).length < n := by
  unfold kept
  split
  · obtain ⟨h1, h2⟩ := hs l
    have h3 : (sort l).Pairwise fun a b => a.2 ≠ b.2 := h1.symm.pairwise hd (fun h => Ne.symm h)
    have h4 : (sort l).Pairwise fun a b => b.2 < a.2 := by
      refine (h2.and h3).imp ?_
      rintro a b ⟨h, h'⟩
      omega
    rw [mem_take_sorted n h4 (h1.symm.subset he), (h1.filter _).length_eq]
  · rename_i hlen
    refine ⟨fun _ => ?_, fun _ => he⟩
    have : (l.filter fun x => decide (e.2 < x.2)).length < l.length := by
      rw [List.length_filter_lt_length_iff_exists]
      exact ⟨e, he, by simp⟩
    omega

theorem kept_subset {sort : List (I × Int) → List (I × Int)} (hs : Sorts sort) {l : List (I × Int)} (n : Nat) :
    ∃ l', (kept sort n l).Sublist l' ∧ l'.Perm l := by
  unfold kept
  split
  · exact ⟨sort l, List.take_sublist _ _, (hs l).1⟩
  · exact ⟨l, List.Sublist.refl _, List.Perm.refl _⟩

end Verif.Overlap
