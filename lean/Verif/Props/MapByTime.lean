import Verif.MapByTime
import Verif.Props.MapById
import Mathlib.Order.Fin.Basic

/-! # C11: trimming a node keeps sensor data usable for interpolation -/

namespace Verif.MapByTime

set_option linter.unusedSectionVars false

variable {T D N : Type} [LinearOrder T] [BoundedOrder T]

open MapById (Id idLt at? flat find rest before)

theorem find_rest {nodes : MapById.Map N} (w : MapById.WF nodes) {id : Id} {n : N} (hm : (id, n) ∈ flat nodes) :
    ∃ L, rest (find nodes id) = (id, n) :: L ∧ (∀ x ∈ L, idLt id x.1) ∧ (∀ x ∈ before (find nodes id), idLt x.1 id) := by
  obtain ⟨v, r⟩ := MapById.find_spec w hm
  have hs := MapById.flat_sorted w
  have hsp := MapById.flat_split v
  have hex : ∃ L, rest (find nodes id) = (id, n) :: L := by
    rw [r]
    clear hsp r v
    generalize flat nodes = F at hm hs
    induction F with
    | nil => cases hm
    | cons x F ih =>
      obtain ⟨h1, h2⟩ := List.pairwise_cons.1 hs
      rcases List.mem_cons.1 hm with rfl | hm
      · exact ⟨_, List.filter_cons_of_pos (by simp)⟩
      · have := h1 _ hm
        simp only [idLt] at this
        obtain ⟨L, hL⟩ := ih hm h2
        refine ⟨L, ?_⟩
        rw [List.filter_cons_of_neg, hL]
        rw [decide_eq_true_eq]
        rintro (e | e)
        · rw [e] at this; omega
        · simp only [idLt] at e; omega
  obtain ⟨L, hL⟩ := hex
  rw [hsp, hL] at hs
  obtain ⟨-, q2, q3⟩ := List.pairwise_append.1 hs
  exact ⟨L, hL, fun x hx => (List.pairwise_cons.1 q2).1 x hx, fun x hx => q3 x hx _ List.mem_cons_self⟩

/-- `gs` is the time of the node before `(t, i)` in its trajectory, or `⊥` if there is none. -/
def IsGapStart (ntime : N → T) (nodes : MapById.Map N) (t i : Int) (gs : T) : Prop :=
  (gs = ⊥ ∧ ∀ j n, at? nodes (t, j) = some n → i ≤ j) ∨
  (∃ j n, at? nodes (t, j) = some n ∧ j < i ∧ gs = ntime n ∧ ∀ k n', at? nodes (t, k) = some n' → k < i → k ≤ j)

/-- `ge` is the time of the node after `(t, i)` in its trajectory, or `⊤` if there is none. -/
def IsGapEnd (ntime : N → T) (nodes : MapById.Map N) (t i : Int) (ge : T) : Prop :=
  (ge = ⊤ ∧ ∀ j n, at? nodes (t, j) = some n → j ≤ i) ∨
  (∃ j n, at? nodes (t, j) = some n ∧ i < j ∧ ge = ntime n ∧ ∀ k n', at? nodes (t, k) = some n' → i < k → j ≤ k)

theorem gapStart_spec (ntime : N → T) {nodes : MapById.Map N} (w : MapById.WF nodes) {t i : Int} {n : N}
    (hm : at? nodes (t, i) = some n) : ∃ gs, gapStart ntime nodes (t, i) = some gs ∧ IsGapStart ntime nodes t i gs := by
  have hm := (MapById.at?_iff_mem w).1 hm
  obtain ⟨v, -⟩ := MapById.find_spec w hm
  obtain ⟨L, hL, ha, hb⟩ := find_rest w hm
  have hsp := MapById.flat_split v
  have hs := MapById.flat_sorted w
  obtain ⟨vB, rB⟩ := MapById.beginOfTrajectory_spec w t
  have hlen : (rest (MapById.beginOfTrajectory nodes t)).length =
      ((before (find nodes (t, i))).filter (fun e => decide (t ≤ e.1.1))).length + (rest (find nodes (t, i))).length := by
    rw [rB, hsp, List.filter_append, List.length_append]
    congr 1
    rw [List.filter_eq_self.2]
    intro x hx
    rw [hL] at hx
    rcases List.mem_cons.1 hx with rfl | hx
    · simp
    · have := ha x hx; simp only [idLt] at this; simp; omega
  have hin : ∀ j n', at? nodes (t, j) = some n' → j < i → ((t, j), n') ∈ before (find nodes (t, i)) := by
    intro j n' hj hji
    have hj := (MapById.at?_iff_mem w).1 hj
    rw [hsp] at hj
    rcases List.mem_append.1 hj with h | h
    · exact h
    · rw [hL] at h
      rcases List.mem_cons.1 h with h | h
      · simp only [Prod.mk.injEq] at h; omega
      · have := ha _ h; simp only [idLt] at this; omega
  simp only [gapStart]
  by_cases he : (find nodes (t, i)).eq (MapById.beginOfTrajectory nodes t) = true
  · rw [if_pos he]
    refine ⟨⊥, rfl, Or.inl ⟨rfl, ?_⟩⟩
    rw [MapById.eq_iff v vB, hlen] at he
    have he : ((before (find nodes (t, i))).filter (fun e => decide (t ≤ e.1.1))) = [] := by
      apply List.eq_nil_of_length_eq_zero; omega
    intro j n' hj
    by_contra hc
    have := List.filter_eq_nil_iff.1 he _ (hin j n' hj (by omega))
    simp at this
  · rw [if_neg he]
    rw [MapById.eq_iff v vB, hlen] at he
    obtain ⟨y, hy⟩ := List.exists_mem_of_length_pos (l := (before (find nodes (t, i))).filter (fun e => decide (t ≤ e.1.1))) (by omega)
    obtain ⟨hy, hyt⟩ := List.mem_filter.1 hy
    simp only [decide_eq_true_eq] at hyt
    rcases List.eq_nil_or_concat (before (find nodes (t, i))) with h0 | ⟨P, x, hx⟩
    · rw [h0] at hy; cases hy
    rw [List.concat_eq_append] at hx
    obtain ⟨it', hp, hd, -, -, -⟩ := MapById.prev_spec w.nonempty v hx
    have hsb : (P ++ [x]).Pairwise (fun a b => idLt a.1 b.1) := by
      rw [← hx]; rw [hsp] at hs; exact (List.pairwise_append.1 hs).1
    have hmax : ∀ z ∈ before (find nodes (t, i)), z = x ∨ idLt z.1 x.1 := by
      intro z hz
      rw [hx] at hz
      rcases List.mem_append.1 hz with h | h
      · exact Or.inr ((List.pairwise_append.1 hsb).2.2 z h x (by simp))
      · left; simpa using h
    have hxb := hb x (by rw [hx]; simp)
    have hxt : x.1.1 = t := by
      have := hb y hy
      simp only [idLt] at this hxb
      rcases hmax y hy with rfl | h
      · omega
      · simp only [idLt] at h; omega
    obtain ⟨⟨xt, xi⟩, xn⟩ := x
    simp only at hxt
    subst hxt
    refine ⟨ntime xn, by simp [hp, hd], Or.inr ⟨xi, xn, ?_, ?_, rfl, ?_⟩⟩
    · rw [MapById.at?_iff_mem w, hsp, hx]; simp
    · simp only [idLt] at hxb; omega
    · intro k n' hk hki
      have := hmax _ (hin k n' hk hki)
      rcases this with h | h
      · simp only [Prod.mk.injEq] at h; omega
      · simp only [idLt] at h; omega

theorem gapEnd_spec (ntime : N → T) {nodes : MapById.Map N} (w : MapById.WF nodes) {t i : Int} {n : N}
    (hm : at? nodes (t, i) = some n) : ∃ ge, gapEnd ntime nodes (t, i) = some ge ∧ IsGapEnd ntime nodes t i ge := by
  have hm := (MapById.at?_iff_mem w).1 hm
  obtain ⟨v, -⟩ := MapById.find_spec w hm
  obtain ⟨L, hL, ha, hb⟩ := find_rest w hm
  have hsp := MapById.flat_split v
  have hs := MapById.flat_sorted w
  obtain ⟨vE, rE⟩ := MapById.beginOfTrajectory_spec w (t + 1)
  obtain ⟨-, it', hnx, vn, rn⟩ := MapById.next_spec w.nonempty v hL
  have hlen : (rest (MapById.endOfTrajectory nodes t)).length = (L.filter (fun e => decide (t + 1 ≤ e.1.1))).length := by
    rw [MapById.endOfTrajectory, rE, hsp, List.filter_append, hL, List.filter_cons_of_neg (by simp)]
    have h0 : (before (find nodes (t, i))).filter (fun e => decide (t + 1 ≤ e.1.1)) = [] := by
      rw [List.filter_eq_nil_iff]
      intro x hx
      have := hb x hx
      simp only [idLt] at this
      simp; omega
    rw [h0]; simp
  have hin : ∀ j n', at? nodes (t, j) = some n' → i < j → ((t, j), n') ∈ L := by
    intro j n' hj hji
    have hj := (MapById.at?_iff_mem w).1 hj
    rw [hsp] at hj
    rcases List.mem_append.1 hj with h | h
    · have := hb _ h; simp only [idLt] at this; omega
    · rw [hL] at h
      rcases List.mem_cons.1 h with h | h
      · simp only [Prod.mk.injEq] at h; omega
      · exact h
  have heq := MapById.eq_iff vn (b := MapById.endOfTrajectory nodes t) vE
  rw [rn, hlen] at heq
  simp only [gapEnd, hnx, Option.bind_some]
  by_cases he : it'.eq (MapById.endOfTrajectory nodes t) = true
  · rw [if_pos he]
    refine ⟨⊤, rfl, Or.inl ⟨rfl, ?_⟩⟩
    rw [heq] at he
    have he := List.length_filter_eq_length_iff.1 he.symm
    intro j n' hj
    by_contra hc
    have := he _ (hin j n' hj (by omega))
    simp at this
  · rw [if_neg he]
    rw [heq] at he
    cases L with
    | nil => simp at he
    | cons y L =>
      have hsL : (y :: L).Pairwise (fun a b => idLt a.1 b.1) := by
        rw [hsp, hL] at hs
        exact (List.pairwise_cons.1 (List.pairwise_append.1 hs).2.1).2
      obtain ⟨hd, -⟩ := MapById.next_spec w.nonempty vn rn
      have hyt : y.1.1 = t := by
        have h1 := ha y List.mem_cons_self
        simp only [idLt] at h1
        by_contra hc
        apply he
        symm
        rw [List.length_filter_eq_length_iff]
        intro x hx
        rcases List.mem_cons.1 hx with rfl | hx
        · simp; omega
        · have := (List.pairwise_cons.1 hsL).1 x hx
          simp only [idLt] at this
          simp; omega
      have hyi := ha y List.mem_cons_self
      obtain ⟨⟨yt, yi⟩, yn⟩ := y
      simp only at hyt
      subst hyt
      refine ⟨ntime yn, by simp [hd], Or.inr ⟨yi, yn, ?_, ?_, rfl, ?_⟩⟩
      · rw [MapById.at?_iff_mem w, hsp, hL]; simp
      · simp only [idLt] at hyi; omega
      · intro k n' hk hki
        rcases List.mem_cons.1 (hin k n' hk hki) with h | h
        · simp only [Prod.mk.injEq] at h; omega
        · have := (List.pairwise_cons.1 hsL).1 _ h
          simp only [idLt] at this; omega

/-- Position in a sorted list against the number of leading elements satisfying a downward closed predicate. -/
theorem lt_takeWhile {L : List (T × D)} (hs : SMap.Sorted L) (p : T → Bool) (hp : ∀ a b, a ≤ b → p b = true → p a = true)
    {i : Nat} {e : T × D} (he : L[i]? = some e) : i < (L.takeWhile (fun e => p e.1)).length ↔ p e.1 = true := by
  induction L generalizing i with
  | nil => simp at he
  | cons x L ih =>
    by_cases hx : p x.1 = true
    · rw [List.takeWhile_cons_of_pos (p := fun e : T × D => p e.1) hx]
      cases i with
      | zero => simp only [List.getElem?_cons_zero, Option.some.injEq] at he; subst he; simp [hx]
      | succ i =>
        have := ih hs.tail (i := i) (by simpa using he)
        simp only [List.length_cons]
        rw [← this]; omega
    · rw [List.takeWhile_cons_of_neg (p := fun e : T × D => p e.1) hx]
      simp only [List.length_nil, Nat.not_lt_zero, false_iff]
      intro hpe
      apply hx
      cases i with
      | zero => simp only [List.getElem?_cons_zero, Option.some.injEq] at he; subst he; exact hpe
      | succ i =>
        have := hs.head e (List.mem_of_getElem? (by simpa using he))
        exact hp _ _ (le_of_lt this) hpe

theorem mem_take_drop {L : List (T × D)} (hs : SMap.Sorted L) {lo hi i : Nat} {e : T × D} (he : L[i]? = some e) :
    e ∈ L.take lo ++ L.drop hi ↔ i < lo ∨ hi ≤ i := by
  have inj : ∀ j, L[j]? = some e → j = i := by
    intro j hj
    obtain ⟨h1, e1⟩ := List.getElem?_eq_some_iff.1 hj
    obtain ⟨h2, e2⟩ := List.getElem?_eq_some_iff.1 he
    rcases lt_trichotomy i j with h | h | h
    · have := List.pairwise_iff_getElem.1 hs i j h2 h1 h; rw [e1, e2] at this; exact absurd this (lt_irrefl _)
    · exact h.symm
    · have := List.pairwise_iff_getElem.1 hs j i h1 h2 h; rw [e1, e2] at this; exact absurd this (lt_irrefl _)
  rw [List.mem_append]
  constructor
  · rintro (h | h)
    · obtain ⟨j, hj⟩ := List.mem_iff_getElem?.1 h
      rw [List.getElem?_take] at hj
      split at hj
      · left; rw [← inj j hj]; assumption
      · cases hj
    · obtain ⟨j, hj⟩ := List.mem_iff_getElem?.1 h
      rw [List.getElem?_drop] at hj
      have := inj _ hj
      right; omega
  · rintro (h | h)
    · left
      rw [List.mem_iff_getElem?]
      exact ⟨i, by rw [List.getElem?_take, if_pos h, he]⟩
    · right
      rw [List.mem_iff_getElem?]
      exact ⟨i - hi, by rw [List.getElem?_drop, Nat.add_sub_cancel' h, he]⟩

/-- The data to be removed for the gap `[gs, ge]`: data in the gap except the first if there is a node
before it and except the last if there is a node after it. -/
def ToRemove (L : List (T × D)) (gs ge : T) (e : T × D) : Prop :=
  gs ≤ e.1 ∧ e.1 ≤ ge ∧ (gs ≠ ⊥ → ∃ e1 ∈ L, gs ≤ e1.1 ∧ e1.1 < e.1) ∧ (ge ≠ ⊤ → ∃ e2 ∈ L, e.1 < e2.1 ∧ e2.1 ≤ ge)

theorem trimData_spec {L : List (T × D)} (hs : SMap.Sorted L) {gs ge : T} (hg : gs < ge) :
    ∃ L', trimData L gs ge = some L' ∧ L'.Sublist L ∧ ∀ e, e ∈ L' ↔ e ∈ L ∧ ¬ ToRemove L gs ge e := by
  set lo := (L.takeWhile (fun e => decide (e.1 < gs))).length with hlo
  set hi := (L.takeWhile (fun e => decide (e.1 ≤ ge))).length with hhi
  have plo : ∀ {i e}, L[i]? = some e → (i < lo ↔ e.1 < gs) := by
    intro i e he
    rw [hlo, lt_takeWhile hs (fun a => decide (a < gs)) (by intro a b h1 h2; simp at h2 ⊢; exact lt_of_le_of_lt h1 h2) he]
    simp
  have phi : ∀ {i e}, L[i]? = some e → (i < hi ↔ e.1 ≤ ge) := by
    intro i e he
    rw [hhi, lt_takeWhile hs (fun a => decide (a ≤ ge)) (by intro a b h1 h2; simp at h2 ⊢; exact le_trans h1 h2) he]
    simp
  have hhl : hi ≤ L.length := List.IsPrefix.length_le (List.takeWhile_prefix _)
  have hll : lo ≤ L.length := List.IsPrefix.length_le (List.takeWhile_prefix _)
  have hle : lo ≤ hi := by
    by_contra hc
    have hb : hi < L.length := by omega
    have e := List.getElem?_eq_getElem hb
    have h1 := (plo e).1 (by omega)
    have h2 := mt (phi e).2 (by omega)
    exact h2 (le_of_lt (lt_trans h1 hg))
  have sget : ∀ {i j : Nat} {a b : T × D}, L[i]? = some a → L[j]? = some b → (i < j ↔ a.1 < b.1) := by
    intro i j a b ha hb
    obtain ⟨h1, rfl⟩ := List.getElem?_eq_some_iff.1 ha
    obtain ⟨h2, rfl⟩ := List.getElem?_eq_some_iff.1 hb
    constructor
    · intro h; exact List.pairwise_iff_getElem.1 hs i j h1 h2 h
    · intro h
      by_contra hc
      rcases Nat.lt_or_eq_of_le (Nat.le_of_not_lt hc) with h' | h'
      · exact absurd h (not_lt.2 (le_of_lt (List.pairwise_iff_getElem.1 hs j i h2 h1 h')))
      · subst h'; exact lt_irrefl _ h
  -- removal in terms of positions
  have key : ∀ {i e}, L[i]? = some e → (ToRemove L gs ge e ↔
      (if gs ≠ ⊥ then lo + 1 else lo) ≤ i ∧ i < (if ge ≠ ⊤ then hi - 1 else hi)) := by
    intro i e he
    have h1 := plo he
    have h2 := phi he
    have A : (gs ≤ e.1 ∧ (gs ≠ ⊥ → ∃ e1 ∈ L, gs ≤ e1.1 ∧ e1.1 < e.1)) ↔ (if gs ≠ ⊥ then lo + 1 else lo) ≤ i := by
      split
      · rename_i hb
        constructor
        · rintro ⟨-, h⟩
          obtain ⟨e1, hm, h3, h4⟩ := h hb
          obtain ⟨j, hj⟩ := List.mem_iff_getElem?.1 hm
          have h5 := mt (plo hj).1 (not_lt.2 h3)
          have h6 := (sget hj he).2 h4
          omega
        · intro h
          obtain ⟨hil, -⟩ := List.getElem?_eq_some_iff.1 he
          have hb' : lo < L.length := by omega
          have e1 := List.getElem?_eq_getElem hb'
          refine ⟨not_lt.1 (mt h1.2 (by omega)), fun _ => ⟨L[lo], List.getElem_mem hb', not_lt.1 (mt (plo e1).2 (by omega)), (sget e1 he).1 (by omega)⟩⟩
      · rename_i hb
        rw [← not_lt, ← h1]
        constructor
        · rintro ⟨h, -⟩; omega
        · intro h; exact ⟨by omega, fun h' => absurd h' hb⟩
    have B : (e.1 ≤ ge ∧ (ge ≠ ⊤ → ∃ e2 ∈ L, e.1 < e2.1 ∧ e2.1 ≤ ge)) ↔ i < (if ge ≠ ⊤ then hi - 1 else hi) := by
      split
      · rename_i hb
        constructor
        · rintro ⟨-, h⟩
          obtain ⟨e2, hm, h3, h4⟩ := h hb
          obtain ⟨j, hj⟩ := List.mem_iff_getElem?.1 hm
          have h5 := (phi hj).2 h4
          have h6 := (sget he hj).2 h3
          omega
        · intro h
          have hb' : hi - 1 < L.length := by omega
          have e1 := List.getElem?_eq_getElem hb'
          refine ⟨h2.1 (by omega), fun _ => ⟨L[hi - 1], List.getElem_mem hb', (sget he e1).1 h, (phi e1).1 (by omega)⟩⟩
      · rename_i hb
        rw [← h2]
        constructor
        · rintro ⟨h, -⟩; omega
        · intro h; exact ⟨by omega, fun h' => absurd h' hb⟩
    rw [← A, ← B]
    simp only [ToRemove]
    tauto
  have nothing : (∀ (i : Nat) (e : T × D), L[i]? = some e → ¬ ToRemove L gs ge e) →
      ∃ L', some L = some L' ∧ L'.Sublist L ∧ ∀ e, e ∈ L' ↔ e ∈ L ∧ ¬ ToRemove L gs ge e := by
    intro h
    refine ⟨L, rfl, List.Sublist.refl _, fun e => ⟨fun he => ⟨he, ?_⟩, fun he => he.1⟩⟩
    obtain ⟨i, hi⟩ := List.mem_iff_getElem?.1 he
    exact h i e hi
  have erase : ∀ lo' hi', lo' ≤ hi' → hi' ≤ L.length →
      (∀ (i : Nat) (e : T × D), L[i]? = some e → (ToRemove L gs ge e ↔ lo' ≤ i ∧ i < hi')) →
      ∃ L', eraseRange L lo' hi' = some L' ∧ L'.Sublist L ∧ ∀ e, e ∈ L' ↔ e ∈ L ∧ ¬ ToRemove L gs ge e := by
    intro lo' hi' h1 h2 h3
    have hsub : (L.take lo' ++ L.drop hi').Sublist L := by
      have : L.drop hi' = (L.drop lo').drop (hi' - lo') := by rw [List.drop_drop]; congr 1; omega
      rw [this]
      conv_rhs => rw [← List.take_append_drop lo' L]
      exact List.Sublist.append_left (List.drop_sublist _ _) _
    refine ⟨_, by rw [eraseRange, if_pos ⟨h1, h2⟩], hsub, fun e => ?_⟩
    constructor
    · intro he
      have hm := hsub.subset he
      obtain ⟨i, hi⟩ := List.mem_iff_getElem?.1 hm
      rw [mem_take_drop hs hi] at he
      exact ⟨hm, by rw [h3 i e hi]; omega⟩
    · rintro ⟨hm, hr⟩
      obtain ⟨i, hi⟩ := List.mem_iff_getElem?.1 hm
      rw [h3 i e hi] at hr
      rw [mem_take_drop hs hi]; omega
  simp only [trimData]
  simp only [← hlo, ← hhi]
  by_cases h1 : lo = hi
  · rw [if_pos h1]
    apply nothing
    intro i e he
    rw [key he]
    split <;> split <;> omega
  · rw [if_neg h1]
    by_cases h2 : ge ≠ ⊤
    · rw [if_pos h2]
      by_cases h3 : lo = hi - 1
      · rw [if_pos h3]
        apply nothing
        intro i e he
        rw [key he, if_pos h2]
        split <;> omega
      · rw [if_neg h3]
        apply erase
        · split <;> omega
        · omega
        · intro i e he
          rw [key he, if_pos h2]
    · rw [if_neg h2]
      apply erase
      · split <;> omega
      · omega
      · intro i e he
        rw [key he, if_neg h2]

/-- Class invariant: trajectories sorted by id, each holding its data under their own strictly increasing
times, none empty. -/
structure WF (time : D → T) (m : Map T D) : Prop where
  sorted : SMap.Sorted m
  nonneg : ∀ e ∈ m, 0 ≤ e.1
  dsorted : ∀ e ∈ m, SMap.Sorted e.2
  nonempty : ∀ e ∈ m, e.2 ≠ []
  keys : ∀ e ∈ m, ∀ x ∈ e.2, x.1 = time x.2

/-- What one call did. -/
inductive Step (time : D → T) (ntime : N → T) : Map T D → Map T D → Prop where
  | append {m m' : Map T D} (t : Int) (d : D) : append time m t d = some m' → Step time ntime m m'
  | trim {m m' : Map T D} (nodes : MapById.Map N) (id : Id) : MapById.WF nodes →
      trim ntime nodes id m = some m' → Step time ntime m m'

/-- Contents after any history of calls that did not abort. -/
inductive Reach (time : D → T) (ntime : N → T) : Map T D → Prop where
  | init : Reach time ntime []
  | step {m m' : Map T D} : Reach time ntime m → Step time ntime m m' → Reach time ntime m'

/-- Every node of the trajectory has a time strictly between `⊥` and `⊤`, and times increase with the index. -/
def Ordered (ntime : N → T) (nodes : MapById.Map N) (t : Int) : Prop :=
  (∀ j n, at? nodes (t, j) = some n → ⊥ < ntime n ∧ ntime n < ⊤) ∧
  ∀ j k a b, at? nodes (t, j) = some a → at? nodes (t, k) = some b → j < k → ntime a < ntime b

/-- All trajectory ids of nodes are below the largest `int`. -/
def SmallNodes (nodes : MapById.Map N) : Prop := ∀ id n, at? nodes id = some n → id.1 < MapById.intMax

theorem find_ne_end {nodes : MapById.Map N} (w : MapById.WF nodes) (hb : SmallNodes nodes) {id : Id} {n : N}
    (hn : at? nodes id = some n) : (find nodes id).eq (MapById.end_ nodes) = false := by
  obtain ⟨ve, re⟩ : MapById.Valid nodes (MapById.end_ nodes) ∧ rest (MapById.end_ nodes) = _ :=
    MapById.beginOfTrajectory_spec w MapById.intMax
  have re' : rest (MapById.end_ nodes) = [] := by
    rw [re, List.filter_eq_nil_iff]
    rintro ⟨id, d⟩ hx
    have := hb _ _ ((MapById.at?_iff_mem w).2 hx)
    simp; omega
  have hm := (MapById.at?_iff_mem w).1 hn
  obtain ⟨v, -⟩ := MapById.find_spec w hm
  obtain ⟨L, hL, -, -⟩ := find_rest w hm
  rw [Bool.eq_false_iff, ne_eq, MapById.eq_iff v ve, re', hL]; simp

/-- `Trim` as seen from outside, in terms of the gap left by the node. -/
theorem trim_exact {time : D → T} (ntime : N → T) {m : Map T D} (wm : WF time m) {nodes : MapById.Map N}
    (w : MapById.WF nodes) (hb : SmallNodes nodes) {t i : Int} {n : N} (hn : at? nodes (t, i) = some n)
    (ho : Ordered ntime nodes t) :
    ∃ m' gs ge, trim ntime nodes (t, i) m = some m' ∧ IsGapStart ntime nodes t i gs ∧ IsGapEnd ntime nodes t i ge ∧
      gs < ge ∧ WF time m' ∧
      (∀ t', t' ≠ t → SMap.get? t' m' = SMap.get? t' m) ∧
      ((SMap.get? t m' |>.getD []).Sublist (SMap.get? t m |>.getD [])) ∧
      ∀ e, e ∈ (SMap.get? t m' |>.getD []) ↔
        e ∈ (SMap.get? t m |>.getD []) ∧ ¬ ToRemove (SMap.get? t m |>.getD []) gs ge e := by
  obtain ⟨gs, hgs, sgs⟩ := gapStart_spec ntime w hn
  obtain ⟨ge, hge, sge⟩ := gapEnd_spec ntime w hn
  have ht0 : ¬ t < 0 := by
    have hm := (MapById.at?_iff_mem w).1 hn
    obtain ⟨tr, h1, -⟩ := MapById.mem_flat.1 hm
    have := w.nonneg _ h1
    simp only at this
    omega
  have hlt : gs < ge := by
    rcases sgs with ⟨rfl, -⟩ | ⟨j, a, ha, hji, rfl, -⟩
    · rcases sge with ⟨rfl, -⟩ | ⟨k, b, hk, hik, rfl, -⟩
      · exact lt_trans (ho.1 _ _ hn).1 (ho.1 _ _ hn).2
      · exact (ho.1 _ _ hk).1
    · rcases sge with ⟨rfl, -⟩ | ⟨k, b, hk, hik, rfl, -⟩
      · exact (ho.1 _ _ ha).2
      · exact ho.2 _ _ _ _ ha hk (by omega)
  simp only [trim, if_neg ht0]
  cases hg : SMap.get? t m with
  | none =>
    refine ⟨m, gs, ge, rfl, sgs, sge, hlt, wm, fun _ _ => rfl, ?_, ?_⟩
    · rw [hg]
    · intro e; rw [hg]; simp
  | some tr =>
    have hmem := SMap.mem_of_get? hg
    obtain ⟨L', hL, hsub, hL'⟩ := trimData_spec (wm.dsorted _ hmem) hlt
    have hsL : SMap.Sorted L' := (wm.dsorted _ hmem).sublist hsub
    simp only [find_ne_end w hb hn, Bool.false_eq_true, if_false, hgs, hge, if_pos hlt, hL]
    by_cases hnil : L'.isEmpty = true
    · rw [if_pos hnil]
      rw [List.isEmpty_iff] at hnil
      subst hnil
      refine ⟨_, gs, ge, rfl, sgs, sge, hlt, ?_, ?_, ?_, ?_⟩
      · refine ⟨SMap.sorted_erase wm.sorted, ?_, ?_, ?_, ?_⟩ <;> intro e he <;> have he := (SMap.mem_erase.1 he).1
        · exact wm.nonneg e he
        · exact wm.dsorted e he
        · exact wm.nonempty e he
        · exact wm.keys e he
      · intro t' ht'; rw [SMap.get?_erase, if_neg (Ne.symm ht')]
      · rw [SMap.get?_erase, if_pos rfl]; simp
      · intro e; rw [SMap.get?_erase, if_pos rfl]; simpa using hL' e
    · rw [if_neg hnil]
      refine ⟨_, gs, ge, rfl, sgs, sge, hlt, ?_, ?_, ?_, ?_⟩
      · refine ⟨SMap.sorted_put wm.sorted, ?_, ?_, ?_, ?_⟩ <;> intro e he <;> rcases SMap.mem_put he with rfl | he
        · exact not_lt.1 ht0
        · exact wm.nonneg e he
        · exact hsL
        · exact wm.dsorted e he
        · intro h0; rw [List.isEmpty_iff] at hnil; exact hnil h0
        · exact wm.nonempty e he
        · intro x hx; exact wm.keys _ hmem x (hsub.subset hx)
        · exact wm.keys e he
      · intro t' ht'; rw [SMap.get?_put, if_neg (Ne.symm ht')]
      · rw [SMap.get?_put, if_pos rfl]; exact hsub
      · intro e; rw [SMap.get?_put, if_pos rfl]; exact hL' e

theorem exists_first {L : List (T × D)} (hs : SMap.Sorted L) (p : T × D → Prop) {e : T × D} (he : e ∈ L) (hp : p e) :
    ∃ e0 ∈ L, p e0 ∧ ∀ x ∈ L, p x → e0.1 ≤ x.1 := by
  induction L with
  | nil => cases he
  | cons y L ih =>
    by_cases hy : p y
    · refine ⟨y, List.mem_cons_self, hy, fun x hx _ => ?_⟩
      rcases List.mem_cons.1 hx with rfl | hx
      · exact le_refl _
      · exact le_of_lt (hs.head x hx)
    · rcases List.mem_cons.1 he with rfl | he
      · exact absurd hp hy
      · obtain ⟨e0, h1, h2, h3⟩ := ih hs.tail he
        refine ⟨e0, List.mem_cons_of_mem _ h1, h2, fun x hx hpx => ?_⟩
        rcases List.mem_cons.1 hx with rfl | hx
        · exact absurd hpx hy
        · exact h3 x hx hpx

theorem exists_last {L : List (T × D)} (hs : SMap.Sorted L) (p : T × D → Prop) {e : T × D} (he : e ∈ L) (hp : p e) :
    ∃ e0 ∈ L, p e0 ∧ ∀ x ∈ L, p x → x.1 ≤ e0.1 := by
  induction L generalizing e with
  | nil => cases he
  | cons y L ih =>
    by_cases hx : ∃ x ∈ L, p x
    · obtain ⟨x, hx, hpx⟩ := hx
      obtain ⟨e0, h1, h2, h3⟩ := ih hs.tail hx hpx
      refine ⟨e0, List.mem_cons_of_mem _ h1, h2, fun z hz hpz => ?_⟩
      rcases List.mem_cons.1 hz with rfl | hz
      · exact le_of_lt (hs.head _ h1)
      · exact h3 z hz hpz
    · rcases List.mem_cons.1 he with rfl | he
      · refine ⟨e, List.mem_cons_self, hp, fun z hz hpz => ?_⟩
        rcases List.mem_cons.1 hz with rfl | hz
        · exact le_refl _
        · exact absurd ⟨z, hz, hpz⟩ hx
      · exact absurd ⟨e, he, hp⟩ hx

/-- `e` is the newest datum not after `τ`. -/
def IsLatest (L : List (T × D)) (τ : T) (e : T × D) : Prop := e ∈ L ∧ e.1 ≤ τ ∧ ∀ x ∈ L, x.1 ≤ τ → x.1 ≤ e.1

/-- `e` is the oldest datum not before `τ`. -/
def IsEarliest (L : List (T × D)) (τ : T) (e : T × D) : Prop := e ∈ L ∧ τ ≤ e.1 ∧ ∀ x ∈ L, τ ≤ x.1 → e.1 ≤ x.1

/-- Before the gap (with a node before it) nearest data survive. -/
theorem neighbours_before {L L' : List (T × D)} (hs : SMap.Sorted L) {gs ge τ : T} (hne : gs ≠ ⊥) (hτ : τ ≤ gs)
    (hL : ∀ e, e ∈ L' ↔ e ∈ L ∧ ¬ ToRemove L gs ge e) (e : T × D) :
    (IsLatest L' τ e ↔ IsLatest L τ e) ∧ (IsEarliest L' τ e ↔ IsEarliest L τ e) := by
  have keep : ∀ x, x ∈ L → x.1 ≤ τ → x ∈ L' := by
    intro x hx hxt
    refine (hL x).2 ⟨hx, fun hr => ?_⟩
    obtain ⟨e1, -, h1, h2⟩ := hr.2.2.1 hne
    exact absurd (lt_of_le_of_lt h1 h2) (not_lt.2 (le_trans hxt hτ))
  have keepFirst : ∀ x ∈ L, τ ≤ x.1 → ∃ y ∈ L', τ ≤ y.1 ∧ y.1 ≤ x.1 := by
    intro x hx hxt
    obtain ⟨e0, h1, h2, h3⟩ := exists_first hs (fun e => τ ≤ e.1) hx hxt
    refine ⟨e0, (hL e0).2 ⟨h1, fun hr => ?_⟩, h2, h3 x hx hxt⟩
    obtain ⟨e1, k0, k1, k2⟩ := hr.2.2.1 hne
    exact absurd (h3 e1 k0 (le_trans hτ k1)) (not_le.2 k2)
  refine ⟨⟨?_, ?_⟩, ?_, ?_⟩
  · rintro ⟨h1, h2, h3⟩
    exact ⟨((hL e).1 h1).1, h2, fun x hx hxt => h3 x (keep x hx hxt) hxt⟩
  · rintro ⟨h1, h2, h3⟩
    exact ⟨keep e h1 h2, h2, fun x hx hxt => h3 x ((hL x).1 hx).1 hxt⟩
  · rintro ⟨h1, h2, h3⟩
    refine ⟨((hL e).1 h1).1, h2, fun x hx hxt => ?_⟩
    obtain ⟨y, k1, k2, k3⟩ := keepFirst x hx hxt
    exact le_trans (h3 y k1 k2) k3
  · rintro ⟨h1, h2, h3⟩
    refine ⟨(hL e).2 ⟨h1, fun hr => ?_⟩, h2, fun x hx hxt => h3 x ((hL x).1 hx).1 hxt⟩
    obtain ⟨e1, k0, k1, k2⟩ := hr.2.2.1 hne
    exact absurd (h3 e1 k0 (le_trans hτ k1)) (not_le.2 k2)

/-- After the gap (with a node after it) nearest data survive. -/
theorem neighbours_after {L L' : List (T × D)} (hs : SMap.Sorted L) {gs ge τ : T} (hne : ge ≠ ⊤) (hτ : ge ≤ τ)
    (hL : ∀ e, e ∈ L' ↔ e ∈ L ∧ ¬ ToRemove L gs ge e) (e : T × D) :
    (IsLatest L' τ e ↔ IsLatest L τ e) ∧ (IsEarliest L' τ e ↔ IsEarliest L τ e) := by
  have keep : ∀ x, x ∈ L → τ ≤ x.1 → x ∈ L' := by
    intro x hx hxt
    refine (hL x).2 ⟨hx, fun hr => ?_⟩
    obtain ⟨e1, -, h1, h2⟩ := hr.2.2.2 hne
    exact absurd (lt_of_lt_of_le h1 h2) (not_lt.2 (le_trans hτ hxt))
  have keepLast : ∀ x ∈ L, x.1 ≤ τ → ∃ y ∈ L', y.1 ≤ τ ∧ x.1 ≤ y.1 := by
    intro x hx hxt
    obtain ⟨e0, h1, h2, h3⟩ := exists_last hs (fun e => e.1 ≤ τ) hx hxt
    refine ⟨e0, (hL e0).2 ⟨h1, fun hr => ?_⟩, h2, h3 x hx hxt⟩
    obtain ⟨e1, k0, k1, k2⟩ := hr.2.2.2 hne
    exact absurd (h3 e1 k0 (le_trans k2 hτ)) (not_le.2 k1)
  refine ⟨⟨?_, ?_⟩, ?_, ?_⟩
  · rintro ⟨h1, h2, h3⟩
    refine ⟨((hL e).1 h1).1, h2, fun x hx hxt => ?_⟩
    obtain ⟨y, k1, k2, k3⟩ := keepLast x hx hxt
    exact le_trans k3 (h3 y k1 k2)
  · rintro ⟨h1, h2, h3⟩
    refine ⟨(hL e).2 ⟨h1, fun hr => ?_⟩, h2, fun x hx hxt => h3 x ((hL x).1 hx).1 hxt⟩
    obtain ⟨e1, k0, k1, k2⟩ := hr.2.2.2 hne
    exact absurd (h3 e1 k0 (le_trans k2 hτ)) (not_le.2 k1)
  · rintro ⟨h1, h2, h3⟩
    exact ⟨((hL e).1 h1).1, h2, fun x hx hxt => h3 x (keep x hx hxt) hxt⟩
  · rintro ⟨h1, h2, h3⟩
    exact ⟨keep e h1 h2, h2, fun x hx hxt => h3 x ((hL x).1 hx).1 hxt⟩

theorem wf_put {time : D → T} {m : Map T D} (wm : WF time m) {t : Int} {tr : List (T × D)} (h0 : 0 ≤ t)
    (h1 : SMap.Sorted tr) (h2 : tr ≠ []) (h3 : ∀ x ∈ tr, x.1 = time x.2) : WF time (SMap.put t tr m) := by
  refine ⟨SMap.sorted_put wm.sorted, ?_, ?_, ?_, ?_⟩ <;> intro e he <;> rcases SMap.mem_put he with rfl | he
  · exact h0
  · exact wm.nonneg e he
  · exact h1
  · exact wm.dsorted e he
  · exact h2
  · exact wm.nonempty e he
  · exact h3
  · exact wm.keys e he

theorem wf_step {time : D → T} {ntime : N → T} {m m' : Map T D} (ih : WF time m) (hs : Step time ntime m m') : WF time m' := by
  cases hs with
  | append t d hs =>
    simp only [append] at hs
    split at hs
    · cases hs
    rename_i ht
    have h1 : SMap.Sorted ((SMap.get? t m).getD []) := by
      cases hg : SMap.get? t m with
      | none => exact SMap.sorted_nil
      | some tr => exact ih.dsorted _ (SMap.mem_of_get? hg)
    have h2 : ∀ x ∈ (SMap.get? t m).getD [], x.1 = time x.2 := by
      cases hg : SMap.get? t m with
      | none => simp
      | some tr => exact ih.keys _ (SMap.mem_of_get? hg)
    have h3 : WF time (SMap.put t (SMap.put (time d) d ((SMap.get? t m).getD [])) m) := by
      refine wf_put ih (not_lt.1 ht) (SMap.sorted_put h1) ?_ ?_
      · intro hn
        have := SMap.get?_put (k := time d) (k' := time d) (v := d) (l := (SMap.get? t m).getD [])
        rw [hn] at this
        simp [SMap.get?] at this
      · intro x hx
        rcases SMap.mem_put hx with rfl | hx
        · rfl
        · exact h2 x hx
    split at hs
    · simp only [Option.some.injEq] at hs; rw [← hs]; exact h3
    · split at hs
      · simp only [Option.some.injEq] at hs; rw [← hs]; exact h3
      · cases hs
  | trim nodes id w hs =>
    simp only [trim] at hs
    split at hs
    · cases hs
    rename_i ht
    split at hs
    · simp only [Option.some.injEq] at hs; rw [← hs]; exact ih
    rename_i tr hg
    have hmem := SMap.mem_of_get? hg
    split at hs
    · cases hs
    split at hs
    · rename_i gs ge _ _
      split at hs
      · rename_i hlt
        obtain ⟨L', hL, hsub, -⟩ := trimData_spec (ih.dsorted _ hmem) hlt
        rw [hL] at hs
        simp only at hs
        split at hs
        · simp only [Option.some.injEq] at hs
          rw [← hs]
          refine ⟨SMap.sorted_erase ih.sorted, ?_, ?_, ?_, ?_⟩ <;> intro e he <;> have he := (SMap.mem_erase.1 he).1
          · exact ih.nonneg e he
          · exact ih.dsorted e he
          · exact ih.nonempty e he
          · exact ih.keys e he
        · rename_i hnil
          simp only [Option.some.injEq] at hs
          rw [← hs]
          refine wf_put ih (not_lt.1 ht) ((ih.dsorted _ hmem).sublist hsub) ?_ ?_
          · intro h0; rw [List.isEmpty_iff] at hnil; exact hnil h0
          · intro x hx; exact ih.keys _ hmem x (hsub.subset hx)
      · cases hs
    · cases hs

theorem wf_reach {time : D → T} {ntime : N → T} {m : Map T D} (h : Reach time ntime m) : WF time m := by
  induction h with
  | init => exact ⟨List.Pairwise.nil, by simp, by simp, by simp, by simp⟩
  | step _ hs ih => exact wf_step ih hs

/-- The data stored for a trajectory. -/
def dataOf (m : Map T D) (t : Int) : List (T × D) := (SMap.get? t m).getD []

theorem trim_keeps_neighbours_wf {time : D → T} {ntime : N → T} {m : Map T D} (wm : WF time m)
    {nodes : MapById.Map N} (w : MapById.WF nodes) (hb : SmallNodes nodes) {t i : Int} {n : N}
    (hn : at? nodes (t, i) = some n) (ho : Ordered ntime nodes t) :
    ∃ m', trim ntime nodes (t, i) m = some m' ∧
      (∀ j n', j ≠ i → at? nodes (t, j) = some n' → ∀ e,
        (IsLatest (dataOf m' t) (ntime n') e ↔ IsLatest (dataOf m t) (ntime n') e) ∧
        (IsEarliest (dataOf m' t) (ntime n') e ↔ IsEarliest (dataOf m t) (ntime n') e)) ∧
      (dataOf m' t).Sublist (dataOf m t) ∧
      (∀ e ∈ dataOf m t, e ∉ dataOf m' t → ∀ j n', at? nodes (t, j) = some n' →
        (j < i → ntime n' < e.1) ∧ (i < j → e.1 < ntime n')) ∧
      (∀ t', t' ≠ t → dataOf m' t' = dataOf m t') ∧
      (hasTrajectory m' t = true ↔ dataOf m' t ≠ []) := by
  obtain ⟨m', gs, ge, h1, sgs, sge, hlt, wm', hoth, hsub, hex⟩ := trim_exact ntime wm w hb hn ho
  have hsd : SMap.Sorted (dataOf m t) := by
    unfold dataOf
    cases hg : SMap.get? t m with
    | none => exact SMap.sorted_nil
    | some tr => exact wm.dsorted _ (SMap.mem_of_get? hg)
  have hmono : ∀ j k a b, at? nodes (t, j) = some a → at? nodes (t, k) = some b → j ≤ k → ntime a ≤ ntime b := by
    intro j k a b ha hb' hjk
    rcases Int.lt_or_eq_of_le hjk with h | h
    · exact le_of_lt (ho.2 _ _ _ _ ha hb' h)
    · subst h; rw [ha] at hb'; simp only [Option.some.injEq] at hb'; rw [hb']
  have before : ∀ j n', j < i → at? nodes (t, j) = some n' → gs ≠ ⊥ ∧ ntime n' ≤ gs := by
    intro j n' hji hj
    rcases sgs with ⟨-, h⟩ | ⟨k, a, ha, hki, rfl, h⟩
    · have := h j n' hj; omega
    · exact ⟨ne_of_gt (ho.1 _ _ ha).1, hmono _ _ _ _ hj ha (h j n' hj hji)⟩
  have after : ∀ j n', i < j → at? nodes (t, j) = some n' → ge ≠ ⊤ ∧ ge ≤ ntime n' := by
    intro j n' hji hj
    rcases sge with ⟨-, h⟩ | ⟨k, a, ha, hki, rfl, h⟩
    · have := h j n' hj; omega
    · exact ⟨ne_of_lt (ho.1 _ _ ha).2, hmono _ _ _ _ ha hj (h j n' hj hji)⟩
  refine ⟨m', h1, ?_, hsub, ?_, ?_, ?_⟩
  · intro j n' hji hj e
    rcases Int.lt_or_gt_of_ne hji with h | h
    · obtain ⟨q1, q2⟩ := before j n' h hj
      exact neighbours_before hsd q1 q2 hex e
    · obtain ⟨q1, q2⟩ := after j n' h hj
      exact neighbours_after hsd q1 q2 hex e
  · intro e he hne j n' hj
    have hrem : ToRemove (dataOf m t) gs ge e := by
      by_contra hc
      exact hne ((hex e).2 ⟨he, hc⟩)
    refine ⟨fun h => ?_, fun h => ?_⟩
    · obtain ⟨q1, q2⟩ := before j n' h hj
      obtain ⟨e1, -, k1, k2⟩ := hrem.2.2.1 q1
      exact lt_of_le_of_lt (le_trans q2 k1) k2
    · obtain ⟨q1, q2⟩ := after j n' h hj
      obtain ⟨e1, -, k1, k2⟩ := hrem.2.2.2 q1
      exact lt_of_lt_of_le k1 (le_trans k2 q2)
  · intro t' ht'
    simp only [dataOf, hoth t' ht']
  · simp only [hasTrajectory, dataOf]
    cases hg : SMap.get? t m' with
    | none => simp
    | some tr => simpa using wm'.nonempty _ (SMap.mem_of_get? hg)

/-- **C11.** Trimming the data of node `(t, i)` does not abort; every other node of the trajectory has the
same nearest data at or before and at or after its time as before; removed data lie strictly after all
earlier and strictly before all later nodes; the data of other trajectories are untouched. -/
theorem trim_keeps_neighbours {time : D → T} {ntime : N → T} {m : Map T D} (hr : Reach time ntime m)
    {nodes : MapById.Map N} (w : MapById.WF nodes) (hb : SmallNodes nodes) {t i : Int} {n : N}
    (hn : at? nodes (t, i) = some n) (ho : Ordered ntime nodes t) :
    ∃ m', trim ntime nodes (t, i) m = some m' ∧
      (∀ j n', j ≠ i → at? nodes (t, j) = some n' → ∀ e,
        (IsLatest (dataOf m' t) (ntime n') e ↔ IsLatest (dataOf m t) (ntime n') e) ∧
        (IsEarliest (dataOf m' t) (ntime n') e ↔ IsEarliest (dataOf m t) (ntime n') e)) ∧
      (dataOf m' t).Sublist (dataOf m t) ∧
      (∀ e ∈ dataOf m t, e ∉ dataOf m' t → ∀ j n', at? nodes (t, j) = some n' →
        (j < i → ntime n' < e.1) ∧ (i < j → e.1 < ntime n')) ∧
      (∀ t', t' ≠ t → dataOf m' t' = dataOf m t') ∧
      (hasTrajectory m' t = true ↔ dataOf m' t ≠ []) :=
  trim_keeps_neighbours_wf (wf_reach hr) w hb hn ho

/-- Data that is not needed is really removed: strictly inside the gap, with other data of the gap on both
sides (where there is a neighbouring node), nothing stays. -/
theorem trim_removes_gap {time : D → T} {ntime : N → T} {m : Map T D} (hr : Reach time ntime m)
    {nodes : MapById.Map N} (w : MapById.WF nodes) (hb : SmallNodes nodes) {t i : Int} {n : N}
    (hn : at? nodes (t, i) = some n) (ho : Ordered ntime nodes t) {m' : Map T D}
    (h : trim ntime nodes (t, i) m = some m') {e : T × D}
    (hbef : ∀ j n', j < i → at? nodes (t, j) = some n' → ntime n' ≤ e.1)
    (haft : ∀ j n', i < j → at? nodes (t, j) = some n' → e.1 ≤ ntime n')
    (h1 : (∃ j n', j < i ∧ at? nodes (t, j) = some n') → ∃ e1 ∈ dataOf m t, e1.1 < e.1 ∧
      ∀ j n', j < i → at? nodes (t, j) = some n' → ntime n' ≤ e1.1)
    (h2 : (∃ j n', i < j ∧ at? nodes (t, j) = some n') → ∃ e2 ∈ dataOf m t, e.1 < e2.1 ∧
      ∀ j n', i < j → at? nodes (t, j) = some n' → e2.1 ≤ ntime n') : e ∉ dataOf m' t := by
  obtain ⟨m'', gs, ge, k1, sgs, sge, hlt, wm', hoth, hsub, hex⟩ := trim_exact ntime (wf_reach hr) w hb hn ho
  rw [h] at k1
  simp only [Option.some.injEq] at k1
  subst k1
  intro hm
  refine ((hex e).1 hm).2 ⟨?_, ?_, ?_, ?_⟩
  · rcases sgs with ⟨rfl, -⟩ | ⟨k, a, ha, hki, rfl, -⟩
    · exact bot_le
    · exact hbef k a hki ha
  · rcases sge with ⟨rfl, -⟩ | ⟨k, a, ha, hki, rfl, -⟩
    · exact le_top
    · exact haft k a hki ha
  · intro hne
    rcases sgs with ⟨rfl, -⟩ | ⟨k, a, ha, hki, rfl, -⟩
    · exact absurd rfl hne
    · obtain ⟨e1, q1, q2, q3⟩ := h1 ⟨k, a, hki, ha⟩
      exact ⟨e1, q1, q3 k a hki ha, q2⟩
  · intro hne
    rcases sge with ⟨rfl, -⟩ | ⟨k, a, ha, hki, rfl, -⟩
    · exact absurd rfl hne
    · obtain ⟨e1, q1, q2, q3⟩ := h2 ⟨k, a, hki, ha⟩
      exact ⟨e1, q1, q2, q3 k a hki ha⟩

/-- Non-vacuity: three nodes at times 10, 20, 30 and data at 5, 11, 15, 20, 25, 29, 35 (times `Fin 100`). -/
def demoNodes : MapById.Map (Fin 100) := [(0, ⟨true, [(0, 10), (1, 20), (2, 30)]⟩)]

example : Ordered id demoNodes 0 ∧ SmallNodes demoNodes ∧ MapById.WF demoNodes ∧ at? demoNodes (0, 1) = some 20 ∧
    Reach (N := Fin 100) id id [(0, [((11 : Fin 100), (11 : Fin 100)), (15, 15), (29, 29)])] ∧
    trim (D := Fin 100) id demoNodes (0, 1) [(0, [(11, 11), (15, 15), (29, 29)])] = some [(0, [(11, 11), (29, 29)])] := by
  have hw : MapById.WF demoNodes := by
    refine ⟨?_, ?_, ?_, ?_, ?_⟩ <;> simp [demoNodes, SMap.Sorted]
    intro a b h
    omega
  have hat : ∀ t j n, at? demoNodes (t, j) = some n → t = 0 ∧ ((j = 0 ∧ n = 10) ∨ (j = 1 ∧ n = 20) ∨ (j = 2 ∧ n = 30)) := by
    intro t j n h
    have := (MapById.at?_iff_mem hw).1 h
    simp [demoNodes, flat, MapById.tag] at this
    tauto
  refine ⟨⟨?_, ?_⟩, ?_, hw, rfl, ?_, by decide⟩
  · intro j n h
    rcases (hat _ _ _ h).2 with ⟨-, rfl⟩ | ⟨-, rfl⟩ | ⟨-, rfl⟩ <;> decide
  · intro j k a b ha hb hjk
    rcases (hat _ _ _ ha).2 with ⟨rfl, rfl⟩ | ⟨rfl, rfl⟩ | ⟨rfl, rfl⟩ <;>
    rcases (hat _ _ _ hb).2 with ⟨rfl, rfl⟩ | ⟨rfl, rfl⟩ | ⟨rfl, rfl⟩ <;> first | omega | decide
  · rintro ⟨t, j⟩ n h
    have := (hat _ _ _ h).1
    simp [this, MapById.intMax]
  · have e1 := (Reach.init (T := Fin 100) (D := Fin 100) (N := Fin 100) (time := id) (ntime := id)).step (.append 0 11 rfl)
    have e2 := e1.step (.append 0 15 rfl)
    exact e2.step (.append 0 29 rfl)

end Verif.MapByTime
