import Verif.OverlappingTrimmerLemmas
import Mathlib.Data.List.Sort
import Mathlib.Algebra.Order.Group.Int

/-!
# C36: trimming of overlapping submaps
-/

namespace Verif.Overlap

open Verif

set_option linter.unusedSectionVars false

variable {I N C : Type} [LinearOrder I] [LinearOrder N] [LinearOrder C]

/-! ### Freshness -/

/-- Specification of the freshness of a submap: the time of its latest node, which is the one with the largest id among the
nodes of its intra-submap constraints. -/
def Fresh (data : List (Submap I C)) (nodes : List (N × Int)) (constraints : List (Constraint I N)) (i : I) (t : Int) :
    Prop :=
  (∃ s ∈ data, s.id = i) ∧ ∃ n, ⟨i, n, true⟩ ∈ constraints ∧ (∀ m, ⟨i, m, true⟩ ∈ constraints → m ≤ n) ∧ (n, t) ∈ nodes

theorem addConstraint_get (latest : List (I × N)) (c : Constraint I N) (i : I) :
    SMap.get? i (addConstraint latest c) = if c.intra = true ∧ c.submap = i then
      some (match SMap.get? i latest with | none => c.node | some n => max n c.node) else SMap.get? i latest := by
  unfold addConstraint
  by_cases hc : c.intra = true
  · simp only [hc, if_true, true_and]
    by_cases hi : c.submap = i
    · subst hi
      cases h : SMap.get? c.submap latest <;> simp [SMap.get?_put]
    · cases h : SMap.get? c.submap latest <;> simp [SMap.get?_put, hi]
  · simp [hc]

theorem addConstraint_sorted {latest : List (I × N)} (h : SMap.Sorted latest) (c : Constraint I N) :
    SMap.Sorted (addConstraint latest c) := by
  unfold addConstraint
  split
  · split <;> exact SMap.sorted_put h
  · exact h

theorem latest_spec (constraints : List (Constraint I N)) : ∀ latest : List (I × N), SMap.Sorted latest →
    SMap.Sorted (constraints.foldl addConstraint latest) ∧ ∀ i n,
      SMap.get? i (constraints.foldl addConstraint latest) = some n ↔
        (⟨i, n, true⟩ ∈ constraints ∨ SMap.get? i latest = some n) ∧ (∀ m, ⟨i, m, true⟩ ∈ constraints → m ≤ n) ∧
          ∀ m, SMap.get? i latest = some m → m ≤ n := by
  induction constraints with
  | nil =>
    intro latest h
    refine ⟨h, ?_⟩
    intro i n
    simp only [List.foldl_nil, List.not_mem_nil, false_or, false_imp_iff, implies_true, true_and]
    constructor
    · intro h; exact ⟨h, fun m hm => by rw [h] at hm; injection hm with hm; exact hm ▸ le_refl _⟩
    · exact fun h => h.1
  | cons c l ih =>
    intro latest h
    obtain ⟨h1, h2⟩ := ih _ (addConstraint_sorted h c)
    refine ⟨h1, ?_⟩
    intro i n
    rw [List.foldl_cons, h2 i n, addConstraint_get]
    obtain ⟨ci, cn, ct⟩ := c
    by_cases hc : ct = true ∧ ci = i
    · obtain ⟨rfl, rfl⟩ := hc
      cases hg : SMap.get? ci latest with
      | none =>
        simp only [true_and, if_true, Option.some.injEq, List.mem_cons, Constraint.mk.injEq, and_true]
        grind
      | some k =>
        simp only [true_and, if_true, Option.some.injEq, List.mem_cons, Constraint.mk.injEq, and_true]
        clear h1 h2 ih
        rcases le_total k cn with hk | hk
        · rw [max_eq_right hk]
          constructor
          · rintro ⟨g1, g2, g3⟩
            have := g3 cn rfl
            refine ⟨?_, ?_, ?_⟩
            · rcases g1 with g1 | g1
              · exact Or.inl (Or.inr g1)
              · exact Or.inl (Or.inl g1.symm)
            · rintro m (rfl | hm)
              · exact this
              · exact g2 m hm
            · rintro m rfl; exact le_trans hk this
          · rintro ⟨g1, g2, g3⟩
            have := g2 cn (Or.inl rfl)
            refine ⟨?_, fun m hm => g2 m (Or.inr hm), by rintro m rfl; exact this⟩
            rcases g1 with (g1 | g1) | g1
            · exact Or.inr g1.symm
            · exact Or.inl g1
            · subst g1; exact Or.inr (le_antisymm this hk)
        · rw [max_eq_left hk]
          constructor
          · rintro ⟨g1, g2, g3⟩
            have := g3 k rfl
            refine ⟨?_, ?_, g3⟩
            · rcases g1 with g1 | g1
              · exact Or.inl (Or.inr g1)
              · exact Or.inr g1
            · rintro m (rfl | hm)
              · exact le_trans hk this
              · exact g2 m hm
          · rintro ⟨g1, g2, g3⟩
            have := g3 k rfl
            refine ⟨?_, fun m hm => g2 m (Or.inr hm), g3⟩
            rcases g1 with (g1 | g1) | g1
            · subst g1; exact Or.inr (le_antisymm this hk)
            · exact Or.inl g1
            · exact Or.inr g1
    · have h3 : ∀ m, (⟨i, m, true⟩ : Constraint I N) ∈ (⟨ci, cn, ct⟩ :: l) ↔ ⟨i, m, true⟩ ∈ l := by
        intro m
        rw [List.mem_cons]
        constructor
        · rintro (h | h)
          · injection h with e1 e2 e3; exact absurd ⟨e3.symm, e1.symm⟩ hc
          · exact h
        · exact Or.inr
      simp only [hc, if_false, h3]

theorem addFreshness_fold (data : List (Submap I C)) (nodes : List (N × Int)) (l : List (I × N)) :
    ∀ f : List (I × Int), SMap.Sorted l → ∀ i t,
      (SMap.get? i (l.foldl (addFreshness data nodes) f) = some t ↔
        (∃ n, (i, n) ∈ l ∧ (∃ s ∈ data, s.id = i) ∧ SMap.get? n nodes = some t) ∨
        ((∀ n, (i, n) ∈ l → ¬ ((∃ s ∈ data, s.id = i) ∧ ∃ t, SMap.get? n nodes = some t)) ∧ SMap.get? i f = some t)) := by
  induction l with
  | nil => intro f _ i t; simp
  | cons e l ih =>
    classical
    intro f hs i t
    obtain ⟨j, m⟩ := e
    have hhead := hs.head
    rw [List.foldl_cons, ih _ hs.tail]
    have hstep : SMap.get? i (addFreshness data nodes f (j, m)) =
        if (∃ s ∈ data, s.id = j) ∧ (∃ t, SMap.get? m nodes = some t) ∧ j = i then SMap.get? m nodes
        else SMap.get? i f := by
      unfold addFreshness
      simp only [List.any_eq_true, decide_eq_true_eq]
      by_cases hd : ∃ s ∈ data, s.id = j
      · rw [if_pos hd]
        cases hn : SMap.get? m nodes with
        | none => simp
        | some t => simp [SMap.get?_put, hd]
      · rw [if_neg hd, if_neg (fun h => hd h.1)]
    rw [hstep]
    by_cases hj : j = i
    · subst hj
      have hno : ∀ n, (j, n) ∉ l := fun n hn => lt_irrefl j (hhead (j, n) hn)
      constructor
      · rintro (⟨n, hn, -⟩ | ⟨-, h⟩)
        · exact absurd hn (hno n)
        · split at h
          · rename_i hc
            exact Or.inl ⟨m, by simp, hc.1, h⟩
          · rename_i hc
            refine Or.inr ⟨?_, h⟩
            intro n hn hx
            rcases List.mem_cons.1 hn with hn | hn
            · injection hn with _ hn
              subst hn
              exact hc ⟨hx.1, hx.2, rfl⟩
            · exact hno n hn
      · rintro (⟨n, hn, h1, h2⟩ | ⟨h1, h2⟩)
        · rcases List.mem_cons.1 hn with hn | hn
          · injection hn with _ hn
            subst hn
            refine Or.inr ⟨fun n hn => absurd hn (hno n), ?_⟩
            rw [if_pos ⟨h1, ⟨t, h2⟩, rfl⟩]
            exact h2
          · exact absurd hn (hno n)
        · refine Or.inr ⟨fun n hn => absurd hn (hno n), ?_⟩
          rw [if_neg]
          · exact h2
          · intro hc
            exact h1 m (by simp) ⟨hc.1, hc.2.1⟩
    · have hmem : ∀ n, (i, n) ∈ (j, m) :: l ↔ (i, n) ∈ l := by
        intro n
        rw [List.mem_cons]
        constructor
        · rintro (h | h)
          · injection h with h; exact absurd h.symm hj
          · exact h
        · exact Or.inr
      simp only [hmem, hj, and_false, if_false]

/-- `ComputeSubmapFreshness` computes the freshness. -/
theorem freshness_spec (data : List (Submap I C)) {nodes : List (N × Int)} (hn : SMap.Sorted nodes)
    (constraints : List (Constraint I N)) (i : I) (t : Int) :
    SMap.get? i (computeFreshness data nodes constraints) = some t ↔ Fresh data nodes constraints i t := by
  obtain ⟨h1, h2⟩ := latest_spec constraints [] SMap.sorted_nil
  unfold computeFreshness
  rw [addFreshness_fold data nodes _ [] h1]
  have h0 : ∀ m : N, ¬ SMap.get? i ([] : List (I × N)) = some m := by simp [SMap.get?]
  constructor
  · rintro (⟨n, g1, g2, g3⟩ | ⟨-, h⟩)
    · have := (h2 i n).1 (SMap.get?_of_mem h1 g1)
      refine ⟨g2, n, ?_, this.2.1, SMap.mem_of_get? g3⟩
      exact this.1.resolve_right (h0 n)
    · simp [SMap.get?] at h
  · rintro ⟨g1, n, g2, g3, g4⟩
    refine Or.inl ⟨n, SMap.mem_of_get? ((h2 i n).2 ⟨Or.inl g2, g3, ?_⟩), g1, SMap.get?_of_mem hn g4⟩
    intro m hm
    exact absurd hm (h0 m)

/-! ### Which submaps are selected -/

/-- Specification: a submap takes part if it is finished and its freshness is known. -/
def TakesPart (data : List (Submap I C)) (nodes : List (N × Int)) (constraints : List (Constraint I N))
    (e : Submap I C × Int) : Prop :=
  e.1 ∈ data ∧ e.1.finished = true ∧ Fresh data nodes constraints e.1.id e.2

/-- The submaps that take part, as a list. -/
def parts (data : List (Submap I C)) (nodes : List (N × Int)) (constraints : List (Constraint I N)) :
    List (Submap I C × Int) :=
  eligible (computeFreshness data nodes constraints) data

theorem mem_parts {data : List (Submap I C)} {nodes : List (N × Int)} (hn : SMap.Sorted nodes)
    {constraints : List (Constraint I N)} {e : Submap I C × Int} :
    e ∈ parts data nodes constraints ↔ TakesPart data nodes constraints e := by
  unfold parts TakesPart
  rw [mem_eligible, freshness_spec data hn]

/-- Only submaps that take part are selected, in increasing order of their ids, and each at most once. -/
theorem select_subset {sort : List (I × Int) → List (I × Int)} {data : List (Submap I C)} {nodes : List (N × Int)}
    (hd : data.Pairwise fun a b => a.id < b.id) (hn : SMap.Sorted nodes) {constraints : List (Constraint I N)}
    {n min : Nat} {i : I} (h : i ∈ select sort n min data nodes constraints) :
    ∃ e, TakesPart data nodes constraints e ∧ e.1.id = i := by
  unfold select at h
  simp only at h
  obtain ⟨h1, -⟩ := addSubmaps_spec (computeFreshness data nodes constraints) data
  rw [h1] at h
  have hs : ((eligible (computeFreshness data nodes constraints) data).map fun e => e.1.id).Pairwise (· < ·) :=
    List.pairwise_map.2 (eligible_sorted _ hd)
  rw [mem_find _ _ hs] at h
  obtain ⟨e, he, rfl⟩ := List.mem_map.1 h.1
  exact ⟨e, (mem_parts hn).1 he, rfl⟩

/-- The number of submaps that cover a cell and are fresher than the given time. -/
def fresher (l : List (Submap I C × Int)) (c : C) (t : Int) : Nat :=
  (l.filter fun e => decide (c ∈ e.1.cells ∧ t < e.2)).length

/-- The number of cells of a submap in which it is among the `n` freshest submaps. -/
def freshCells (n : Nat) (l : List (Submap I C × Int)) (e : Submap I C × Int) : Nat :=
  (e.1.cells.filter fun c => decide (fresher l c e.2 < n)).length

theorem sum_indicator {α : Type} (l : List α) (p : α → Bool) (f : α → Nat) (h : ∀ x ∈ l, f x = if p x then 1 else 0) :
    (l.map f).sum = (l.filter p).length := by
  induction l with
  | nil => rfl
  | cons a l ih =>
    rw [List.map_cons, List.sum_cons, ih (fun x hx => h x (List.mem_cons_of_mem _ hx)), h a List.mem_cons_self,
      List.filter_cons]
    split
    · simp; omega
    · simp

/-- If no two known cells of a submap fall into the same cell of the coverage grid and all submaps have different freshness,
a submap is counted in exactly the cells in which it is among the freshest. -/
theorem hits_eq {sort : List (I × Int) → List (I × Int)} (hs : Sorts sort) {freshness : List (I × Int)}
    {data : List (Submap I C)} (hd : data.Pairwise fun a b => a.id < b.id) (n : Nat)
    (hc : ∀ e ∈ eligible freshness data, e.1.cells.Nodup)
    (ht : (eligible freshness data).Pairwise fun a b => a.2 ≠ b.2) {e : Submap I C × Int}
    (he : e ∈ eligible freshness data) :
    hits sort n (addSubmaps freshness data).2 e.1.id = freshCells n (eligible freshness data) e := by
  obtain ⟨-, g1, g2, g3⟩ := addSubmaps_spec freshness data
  generalize hE : eligible freshness data = E at *
  generalize hG : (addSubmaps freshness data).2 = G at *
  have hEs : E.Pairwise fun a b => a.1.id < b.1.id := hE ▸ eligible_sorted freshness hd
  -- The entries of a cell.
  have hlook : ∀ c, look c G = (E.filter fun e => decide (c ∈ e.1.cells)).map fun e => (e.1.id, e.2) := by
    intro c
    rw [g3 c]
    clear g3 hEs ht he hE
    induction E with
    | nil => rfl
    | cons a E ih =>
      have hih := ih (fun e he => hc e (List.mem_cons_of_mem _ he))
      rw [List.flatMap_cons, hih, List.filter_cons]
      have hnd := hc a List.mem_cons_self
      by_cases hm : c ∈ a.1.cells
      · rw [List.count_eq_one_of_mem hnd hm]; simp [hm]
      · rw [List.count_eq_zero_of_not_mem hm]; simp [hm]
  have hcell : ∀ x ∈ G, x.2 = look x.1 G := by
    intro x hx
    have : SMap.get? x.1 G = some x.2 := SMap.get?_of_mem g1 hx
    simp [look, this]
  have hids : ∀ c, ((look c G).map Prod.fst).Nodup := by
    intro c
    rw [hlook c, List.map_map]
    have : (E.filter fun e => decide (c ∈ e.1.cells)).Pairwise fun a b => a.1.id < b.1.id := hEs.filter _
    exact (List.pairwise_map.2 (this.imp fun h => ne_of_lt h))
  have htimes : ∀ c, (look c G).Pairwise fun a b => a.2 ≠ b.2 := by
    intro c
    rw [hlook c]
    exact List.pairwise_map.2 (ht.filter _)
  -- Whether the submap is counted in a cell.
  have hcount : ∀ x ∈ G, ((kept sort n x.2).map Prod.fst).count e.1.id =
      if decide (x.1 ∈ e.1.cells ∧ fresher E x.1 e.2 < n) then 1 else 0 := by
    intro x hx
    rw [hcell x hx]
    obtain ⟨l', hsub, hperm⟩ := kept_subset hs (l := look x.1 G) n
    have hnd : ((kept sort n (look x.1 G)).map Prod.fst).Nodup :=
      (hsub.map Prod.fst).nodup ((hperm.map Prod.fst).nodup_iff.2 (hids x.1))
    have hmem : e.1.id ∈ (kept sort n (look x.1 G)).map Prod.fst ↔ x.1 ∈ e.1.cells ∧ fresher E x.1 e.2 < n := by
      have huniq : ∀ y ∈ look x.1 G, y.1 = e.1.id → y = (e.1.id, e.2) ∧ x.1 ∈ e.1.cells := by
        intro y hy hy1
        rw [hlook] at hy
        obtain ⟨a, ha, rfl⟩ := List.mem_map.1 hy
        rw [List.mem_filter] at ha
        have : a = e := by
          by_contra hne
          have hp : (E.map fun a => a.1.id).Nodup := List.pairwise_map.2 (hEs.imp fun h => ne_of_lt h)
          exact hne (List.inj_on_of_nodup_map hp ha.1 he hy1)
        subst this
        exact ⟨rfl, by simpa using ha.2⟩
      have hfr : ((look x.1 G).filter fun y => decide (e.2 < y.2)).length = fresher E x.1 e.2 := by
        rw [hlook, List.filter_map, List.length_map, List.filter_filter]
        unfold fresher
        congr 1
        apply List.filter_congr
        intro a _
        simp [Bool.and_comm]
      constructor
      · intro h
        obtain ⟨y, hy, hy1⟩ := List.mem_map.1 h
        have hy' : y ∈ look x.1 G := hperm.subset (hsub.subset hy)
        obtain ⟨rfl, hcc⟩ := huniq y hy' hy1
        refine ⟨hcc, ?_⟩
        rw [mem_kept hs n (htimes x.1) hy'] at hy
        rw [← hfr]; exact hy
      · rintro ⟨h1, h2⟩
        have hy : (e.1.id, e.2) ∈ look x.1 G := by
          rw [hlook]
          exact List.mem_map.2 ⟨e, List.mem_filter.2 ⟨he, by simpa using h1⟩, rfl⟩
        refine List.mem_map.2 ⟨(e.1.id, e.2), ?_, rfl⟩
        rw [mem_kept hs n (htimes x.1) hy, hfr]
        exact h2
    by_cases hm : e.1.id ∈ (kept sort n (look x.1 G)).map Prod.fst
    · rw [List.count_eq_one_of_mem hnd hm, if_pos (by simpa using hmem.1 hm)]
    · rw [List.count_eq_zero_of_not_mem hm, if_neg (by simpa using fun h => hm (hmem.2 h))]
  unfold hits
  rw [sum_indicator G (fun x => decide (x.1 ∈ e.1.cells ∧ fresher E x.1 e.2 < n)) _ hcount]
  unfold freshCells
  rw [← List.length_map (f := Prod.fst)]
  apply List.Perm.length_eq
  have hn1 : (G.map Prod.fst).Nodup := List.pairwise_map.2 (g1.imp fun h => ne_of_lt h)
  rw [List.perm_ext_iff_of_nodup]
  · intro c
    simp only [List.mem_map, List.mem_filter, decide_eq_true_eq]
    constructor
    · rintro ⟨x, ⟨hx, h1, h2⟩, rfl⟩
      exact ⟨h1, h2⟩
    · rintro ⟨h1, h2⟩
      have hy : (e.1.id, e.2) ∈ look c G := by
        rw [hlook]
        exact List.mem_map.2 ⟨e, List.mem_filter.2 ⟨he, by simpa using h1⟩, rfl⟩
      cases hg : SMap.get? c G with
      | none => simp [look, hg] at hy
      | some l => exact ⟨(c, l), ⟨SMap.mem_of_get? hg, h1, h2⟩, rfl⟩
  · exact (List.Sublist.map Prod.fst List.filter_sublist).nodup hn1
  · exact (hc e he).filter _

/-- Exactly which submaps are selected, if no two known cells of a submap fall into the same cell of the coverage grid and no
two submaps have the same freshness. -/
theorem select_iff {sort : List (I × Int) → List (I × Int)} (hs : Sorts sort) {data : List (Submap I C)}
    {nodes : List (N × Int)} {constraints : List (Constraint I N)} (hd : data.Pairwise fun a b => a.id < b.id)
    (hn : SMap.Sorted nodes) {n min : Nat}
    (h1 : ∀ e, TakesPart data nodes constraints e → e.1.cells.Nodup)
    (h2 : ∀ e e', TakesPart data nodes constraints e → TakesPart data nodes constraints e' → e.2 = e'.2 → e = e') (i : I) :
    i ∈ select sort n min data nodes constraints ↔
      ∃ e, TakesPart data nodes constraints e ∧ e.1.id = i ∧ (freshCells n (parts data nodes constraints) e = 0 ∨
        freshCells n (parts data nodes constraints) e % 65536 < min) := by
  have hEs := eligible_sorted (computeFreshness data nodes constraints) hd
  have hids : ((eligible (computeFreshness data nodes constraints) data).map fun e => e.1.id).Pairwise (· < ·) :=
    List.pairwise_map.2 hEs
  have ht : (eligible (computeFreshness data nodes constraints) data).Pairwise fun a b => a.2 ≠ b.2 := by
    refine List.Pairwise.imp_of_mem ?_ hEs
    intro a b ha hb hab heq
    have := h2 a b ((mem_parts hn).1 ha) ((mem_parts hn).1 hb) heq
    subst this
    exact lt_irrefl _ hab
  have hkey : ∀ e ∈ eligible (computeFreshness data nodes constraints) data,
      hits sort n (addSubmaps (computeFreshness data nodes constraints) data).2 e.1.id =
        freshCells n (parts data nodes constraints) e :=
    fun e he => hits_eq hs hd n (fun e he => h1 e ((mem_parts hn).1 he)) ht he
  unfold select
  simp only
  rw [(addSubmaps_spec (computeFreshness data nodes constraints) data).1, mem_find _ _ hids]
  constructor
  · rintro ⟨hm, h⟩
    obtain ⟨e, he, rfl⟩ := List.mem_map.1 hm
    rw [hkey e he] at h
    exact ⟨e, (mem_parts hn).1 he, rfl, h⟩
  · rintro ⟨e, he, rfl, h⟩
    have he' := (mem_parts hn).2 he
    refine ⟨List.mem_map.2 ⟨e, he', rfl⟩, ?_⟩
    rw [hkey e he']
    exact h

/-- C36 with the conditions that are missing in it. A submap is selected exactly if it takes part and the number of cells in
which it is among the freshest submaps is below the minimum, provided that

* no two known cells of a submap fall into the same cell of the coverage grid,
* no two submaps have the same freshness,
* a submap has at most 65535 known cells,
* the minimum is not zero. -/
theorem select_iff_partial {sort : List (I × Int) → List (I × Int)} (hs : Sorts sort) {data : List (Submap I C)}
    {nodes : List (N × Int)} {constraints : List (Constraint I N)} (hd : data.Pairwise fun a b => a.id < b.id)
    (hn : SMap.Sorted nodes) {n min : Nat}
    (h1 : ∀ e, TakesPart data nodes constraints e → e.1.cells.Nodup)
    (h2 : ∀ e e', TakesPart data nodes constraints e → TakesPart data nodes constraints e' → e.2 = e'.2 → e = e')
    (h3 : ∀ e, TakesPart data nodes constraints e → e.1.cells.length ≤ 65535) (h4 : 0 < min) (i : I) :
    i ∈ select sort n min data nodes constraints ↔
      ∃ e, TakesPart data nodes constraints e ∧ e.1.id = i ∧ freshCells n (parts data nodes constraints) e < min := by
  rw [select_iff hs hd hn h1 h2]
  have hle : ∀ e, TakesPart data nodes constraints e → freshCells n (parts data nodes constraints) e ≤ 65535 :=
    fun e he => Nat.le_trans (List.length_filter_le _ _) (h3 e he)
  constructor
  · rintro ⟨e, he, hi, h⟩
    have := hle e he
    exact ⟨e, he, hi, by omega⟩
  · rintro ⟨e, he, hi, h⟩
    have := hle e he
    exact ⟨e, he, hi, by omega⟩

/-! ### The conditions are needed -/

/-- A sorting function that meets the assumption. -/
def sortByTime (l : List (I × Int)) : List (I × Int) := l.insertionSort fun a b => b.2 ≤ a.2

theorem sortByTime_sorts : Sorts (sortByTime (I := I)) := by
  intro l
  haveI : Std.Total (fun a b : I × Int => b.2 ≤ a.2) := ⟨fun a b => le_total b.2 a.2⟩
  haveI : IsTrans (I × Int) (fun a b => b.2 ≤ a.2) := ⟨fun _ _ _ h1 h2 => le_trans h2 h1⟩
  exact ⟨List.perm_insertionSort _ l, List.pairwise_insertionSort _ l⟩

/-- The counter of 16 bits wraps around: a submap that is the only one and covers 65536 cells is removed, though only submaps
with less than one cell should be. -/
theorem large_submap_removed : ∃ (data : List (Submap Nat Nat)) (nodes : List (Nat × Int))
    (constraints : List (Constraint Nat Nat)) (e : Submap Nat Nat × Int),
    TakesPart data nodes constraints e ∧ e.1.cells.Nodup ∧ (∀ e', TakesPart data nodes constraints e' → e' = e) ∧
      ¬ freshCells 1 (parts data nodes constraints) e < 1 ∧
      e.1.id ∈ select sortByTime 1 1 data nodes constraints := by
  obtain ⟨L, hnd, hlen⟩ : ∃ L : List Nat, L.Nodup ∧ L.length = 65536 :=
    ⟨List.range 65536, List.nodup_range, List.length_range⟩
  have hn : SMap.Sorted [((0 : Nat), (7 : Int))] := List.pairwise_singleton _ _
  have hT : ∀ e : Submap Nat Nat × Int,
      TakesPart [⟨0, true, L⟩] [(0, 7)] [(⟨0, 0, true⟩ : Constraint Nat Nat)] e ↔
        e = (⟨0, true, L⟩, 7) := by
    intro e
    constructor
    · rintro ⟨h1, -, -, n, -, -, h3⟩
      simp only [List.mem_singleton, Prod.mk.injEq] at h1 h3
      exact Prod.ext h1 h3.2
    · rintro rfl
      refine ⟨List.mem_singleton.2 rfl, rfl, ⟨_, List.mem_singleton.2 rfl, rfl⟩, 0, List.mem_singleton.2 rfl, ?_,
        List.mem_singleton.2 rfl⟩
      intro m hm
      rw [List.mem_singleton] at hm
      injection hm with _ hm _
      exact hm.le
  have hgen : ∀ l : List Nat, parts [⟨0, true, l⟩] [(0, 7)] [(⟨0, 0, true⟩ : Constraint Nat Nat)] =
      [(⟨0, true, l⟩, 7)] := by
    intro l
    simp [parts, eligible, computeFreshness, addConstraint, addFreshness, SMap.get?, SMap.put]
  have hparts := hgen (L)
  have hF : freshCells 1 [((⟨0, true, L⟩ : Submap Nat Nat), (7 : Int))]
      (⟨0, true, L⟩, 7) = 65536 := by
    unfold freshCells
    rw [List.filter_eq_self.2]
    · exact hlen
    · intro c _
      simp [fresher]
  refine ⟨[⟨0, true, L⟩], [(0, 7)], [⟨0, 0, true⟩], (⟨0, true, L⟩, 7), (hT _).2 rfl,
    hnd, fun e' h => (hT e').1 h, ?_, ?_⟩
  · rw [hparts, hF]; omega
  · rw [select_iff sortByTime_sorts (List.pairwise_singleton _ _) hn]
    · refine ⟨_, (hT _).2 rfl, rfl, Or.inr ?_⟩
      rw [hparts, hF]
      omega
    · intro e he
      rw [(hT e).1 he]
      exact hnd
    · intro e e' he he' _
      rw [(hT e).1 he, (hT e').1 he']

/-- With a minimum of zero cells a submap is removed if it is nowhere among the freshest, though no number is below zero. -/
theorem zero_minimum_removes :
    (0 : Nat) ∈ select sortByTime 1 0 [(⟨0, true, [5]⟩ : Submap Nat Nat), ⟨1, true, [5]⟩] [(0, 7), (1, 8)]
      [(⟨0, 0, true⟩ : Constraint Nat Nat), ⟨1, 1, true⟩] := by
  unfold select
  simp only
  rw [mem_find]
  · decide
  · decide

/-- Several known cells of a submap may fall into the same cell. They displace another submap, which is one of the two
freshest submaps of the cell but is removed. -/
theorem double_cell_displaces :
    (0 : Nat) ∈ select sortByTime 2 1 [(⟨0, true, [5]⟩ : Submap Nat Nat), ⟨1, true, [5, 5]⟩] [(0, 7), (1, 8)]
      [(⟨0, 0, true⟩ : Constraint Nat Nat), ⟨1, 1, true⟩] ∧
    freshCells 2 (parts [(⟨0, true, [5]⟩ : Submap Nat Nat), ⟨1, true, [5, 5]⟩] [(0, 7), (1, 8)]
      [(⟨0, 0, true⟩ : Constraint Nat Nat), ⟨1, 1, true⟩]) (⟨0, true, [5]⟩, 7) = 1 := by
  constructor
  · unfold select
    simp only
    rw [mem_find]
    · decide
    · decide
  · decide

/-- A submap that is not covered by enough fresher ones is kept, the others are not: of three submaps on the cells 1, 2 and 3
with one freshest submap per cell, the oldest two keep one cell each. -/
example : (0 : Nat) ∉ select sortByTime 1 1 [(⟨0, true, [1, 2]⟩ : Submap Nat Nat), ⟨1, true, [2, 3]⟩, ⟨2, true, [3]⟩]
    [(0, 7), (1, 8), (2, 9)] [(⟨0, 0, true⟩ : Constraint Nat Nat), ⟨1, 1, true⟩, ⟨2, 2, true⟩] ∧
    (1 : Nat) ∈ select sortByTime 1 2 [(⟨0, true, [1, 2]⟩ : Submap Nat Nat), ⟨1, true, [2, 3]⟩, ⟨2, true, [3]⟩]
    [(0, 7), (1, 8), (2, 9)] [(⟨0, 0, true⟩ : Constraint Nat Nat), ⟨1, 1, true⟩, ⟨2, 2, true⟩] := by
  unfold select
  simp only
  constructor
  · rw [mem_find] <;> decide
  · rw [mem_find] <;> decide

/-! ### `Trim` -/

/-- When `Trim` runs into undefined behaviour. -/
theorem trim_none_iff {sort : List (I × Int) → List (I × Int)} {o : Options} {current : Nat} {data : List (Submap I C)}
    {nodes : List (N × Int)} {constraints : List (Constraint I N)} (hc : current < 65536) (hm : o.minAdded < 65536)
    (hl : data.length < 2 ^ 63) :
    trim sort o current data nodes constraints = none ↔
      (data.length < current ∨ o.minAdded < data.length - current) ∧ (data = [] ∨ 65536 ≤ o.minCells) := by
  have hw : (data.length + 2 ^ 64 - current) % 2 ^ 64 ≤ o.minAdded ↔
      ¬ (data.length < current ∨ o.minAdded < data.length - current) := by
    by_cases h : data.length < current
    · rw [Nat.mod_eq_of_lt (by omega)]; omega
    · rw [show data.length + 2 ^ 64 - current = data.length - current + 2 ^ 64 by omega, Nat.add_mod_right,
        Nat.mod_eq_of_lt (by omega)]
      omega
  unfold trim
  by_cases h : (data.length + 2 ^ 64 - current) % 2 ^ 64 ≤ o.minAdded
  · rw [if_pos h]
    have := hw.1 h
    simp [this]
  · rw [if_neg h]
    have h' : data.length < current ∨ o.minAdded < data.length - current := by
      by_contra hx; exact h (hw.2 hx)
    cases data with
    | nil => simp at h' ⊢; exact h'
    | cons a l =>
      simp only [List.isEmpty_cons, Bool.false_eq_true, if_false, h', true_and, reduceCtorEq, false_or]
      split <;> simp [*]

/-- `Trim` removes exactly the selected submaps or none, and whenever there are fewer submaps than it remembers (for example
because a trajectory was deleted), it selects submaps without waiting for the configured number of new ones. -/
theorem trim_removed {sort : List (I × Int) → List (I × Int)} {o : Options} {current : Nat} {data : List (Submap I C)}
    {nodes : List (N × Int)} {constraints : List (Constraint I N)} {r : Result I} (hc : current < 65536)
    (hm : o.minAdded < 65536) (hl : data.length < 2 ^ 63) (h : trim sort o current data nodes constraints = some r) :
    (data.length < current ∨ o.minAdded < data.length - current) ∧
        r.removed = select sort o.freshCount o.minCells data nodes constraints ∧
        r.current = (data.length - r.removed.length) % 65536 ∨
      (current ≤ data.length ∧ data.length - current ≤ o.minAdded) ∧ r.removed = [] ∧ r.current = current := by
  have hw : (data.length + 2 ^ 64 - current) % 2 ^ 64 ≤ o.minAdded ↔
      ¬ (data.length < current ∨ o.minAdded < data.length - current) := by
    by_cases h : data.length < current
    · rw [Nat.mod_eq_of_lt (by omega)]; omega
    · rw [show data.length + 2 ^ 64 - current = data.length - current + 2 ^ 64 by omega, Nat.add_mod_right,
        Nat.mod_eq_of_lt (by omega)]
      omega
  unfold trim at h
  split at h
  · rename_i hle
    injection h with h
    subst h
    have := hw.1 hle
    exact Or.inr ⟨by omega, rfl, rfl⟩
  · rename_i hle
    split at h
    · cases h
    · split at h
      · cases h
      · injection h with h
        subst h
        refine Or.inl ⟨?_, rfl, rfl⟩
        by_contra hx
        exact hle (hw.2 hx)

/-- After a trim, nothing is trimmed until more than `min_added_submaps_count` submaps were added to those that are left. -/
theorem trim_next {sort : List (I × Int) → List (I × Int)} {o : Options} {current : Nat} {data data' : List (Submap I C)}
    {nodes nodes' : List (N × Int)} {constraints constraints' : List (Constraint I N)} {r : Result I} (hc : current < 65536)
    (hm : o.minAdded < 65536) (hl : data.length < 65536) (hl' : data'.length < 2 ^ 63)
    (h : trim sort o current data nodes constraints = some r) (hr : r.removed ≠ [])
    (hd : data'.length = data.length - r.removed.length + k) (hk : k ≤ o.minAdded) :
    trim sort o r.current data' nodes' constraints' = some ⟨r.current, []⟩ := by
  rcases trim_removed hc hm (by omega) h with ⟨-, -, h3⟩ | ⟨-, h2, -⟩
  · rw [Nat.mod_eq_of_lt (by omega)] at h3
    have : (data'.length + 2 ^ 64 - r.current) % 2 ^ 64 = k := by
      rw [show data'.length + 2 ^ 64 - r.current = k + 2 ^ 64 by omega, Nat.add_mod_right, Nat.mod_eq_of_lt (by omega)]
    unfold trim
    rw [this, if_pos hk]
  · exact absurd h2 hr

/-- If all submaps disappear after a trim, the next one reads the limits of a submap that does not exist. -/
theorem trim_empty_undefined {sort : List (I × Int) → List (I × Int)} (o : Options) {current : Nat} (h0 : 0 < current)
    (hc : current < 65536) (hm : o.minAdded < 65536) (nodes : List (N × Int)) (constraints : List (Constraint I N)) :
    trim sort o current ([] : List (Submap I C)) nodes constraints = none :=
  (trim_none_iff hc hm (by simp)).2 ⟨Or.inl h0, Or.inl rfl⟩

end Verif.Overlap
