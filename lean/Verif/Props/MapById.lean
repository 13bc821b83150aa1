import Verif.MapByIdRun

/-! # C08-C10: the id-keyed map -/

namespace Verif.MapById

set_option linter.unusedSectionVars false

variable {D : Type}

/-- All trajectory ids used are below the largest `int` (which `end()` uses as a sentinel). -/
def SmallIds (h : List (Ev D)) : Prop := ∀ id d, Ev.stored id d ∈ h → id.1 < intMax

theorem size_eq (m : Map D) : size m = (flat m).length := by
  have : ∀ n, m.foldl (fun n e => n + e.2.data.length) n = n + (flat m).length := by
    induction m with
    | nil => intro n; simp [flat]
    | cons e m ih => intro n; rw [List.foldl_cons, ih, flat_cons]; simp; omega
  unfold size
  rw [this]; simp

theorem filter_traj_of_get {m : Map D} (hm : WF m) (t : Int) :
    (flat m).filter (fun e => e.1.1 = t) = ((SMap.get? t m).getD {}).data.map (tag t) := by
  obtain ⟨hs, -, -, -, -⟩ := hm
  induction m with
  | nil => rfl
  | cons e m ih =>
    obtain ⟨k, tr⟩ := e
    rw [flat_cons, List.filter_append, ih hs.tail]
    simp only [SMap.get?]
    by_cases hk : k = t
    · subst hk
      have hn : SMap.get? k m = none := SMap.get?_eq_none.2 (fun e he => ne_of_gt (hs.head e he))
      have h1 : (tr.data.map (tag k)).filter (fun e => decide (e.1.1 = k)) = tr.data.map (tag k) := by
        rw [List.filter_eq_self]
        intro a ha
        obtain ⟨x, -, rfl⟩ := List.mem_map.1 ha
        simp [tag]
      rw [hn, h1, if_pos rfl]
      simp
    · have h1 : (tr.data.map (tag k)).filter (fun e => decide (e.1.1 = t)) = [] := by
        rw [List.filter_eq_nil_iff]
        intro a ha
        obtain ⟨x, -, rfl⟩ := List.mem_map.1 ha
        simp [tag, hk]
      rw [h1, if_neg hk]; rfl

theorem filter_ge_split (L : List (Id × D)) (hL : L.Pairwise (fun a b => idLt a.1 b.1)) (t : Int) :
    L.filter (fun e => decide (t ≤ e.1.1)) = L.filter (fun e => decide (e.1.1 = t)) ++ L.filter (fun e => decide (t + 1 ≤ e.1.1)) := by
  induction L with
  | nil => rfl
  | cons x L ih =>
    obtain ⟨h1, h2⟩ := List.pairwise_cons.1 hL
    have ih := ih h2
    rcases lt_trichotomy x.1.1 t with h | h | h
    · rw [List.filter_cons_of_neg (by simp; omega), List.filter_cons_of_neg (by simp; omega),
        List.filter_cons_of_neg (by simp; omega), ih]
    · rw [List.filter_cons_of_pos (by simp; omega), List.filter_cons_of_pos (by simp; omega),
        List.filter_cons_of_neg (by simp; omega), ih]
      simp
    · have hn : L.filter (fun e => decide (e.1.1 = t)) = [] := by
        rw [List.filter_eq_nil_iff]
        intro a ha
        have := h1 a ha
        simp only [idLt] at this
        simp; omega
      rw [List.filter_cons_of_pos (by simp; omega), List.filter_cons_of_neg (by simp; omega),
        List.filter_cons_of_pos (by simp; omega), ih, hn]
      simp

/-- **C08.** After any operation history that did not abort: lookups return the value last stored and not
trimmed; there is one list `L`, strictly increasing in (trajectory, index) and consisting exactly of the
stored elements, that is visited by the forward loop from `begin()` to `end()`, in reverse by the backward
loop, and in its parts by the loops over single trajectories; the size queries agree with it. -/
theorem ordered_map {ops : List (Op D)} {m : Map D} {h : List (Ev D)} (hr : Run ops m h) (hb : SmallIds h) :
    (∀ id, at? m id = current h id) ∧ (∀ id, contains m id = true ↔ (current h id).isSome) ∧
    ∃ L : List (Id × D),
      L.Pairwise (fun a b => idLt a.1 b.1) ∧ (∀ id d, (id, d) ∈ L ↔ current h id = some d) ∧
      ForLoop (end_ m) (begin_ m) L ∧ BackLoop (begin_ m) (end_ m) L.reverse ∧
      (∀ t, ForLoop (endOfTrajectory m t) (beginOfTrajectory m t) (L.filter (fun e => e.1.1 = t))) ∧
      size m = L.length ∧ (∀ t, sizeOfTrajectoryOrZero m t = (L.filter (fun e => e.1.1 = t)).length) ∧
      (empty m = true ↔ L = []) ∧
      (trajectoryIds m).Pairwise (· < ·) ∧ (∀ t, t ∈ trajectoryIds m ↔ ∃ i d, current h (t, i) = some d) := by
  obtain ⟨w, q⟩ := run_spec hr
  have hsm : ∀ x ∈ flat m, x.1.1 < intMax := by
    rintro ⟨id, d⟩ hx
    have := (at?_iff_mem w).2 hx
    rw [q] at this
    exact hb _ _ (stored_of_current this)
  have hnn : ∀ x ∈ flat m, 0 ≤ x.1.1 := by
    rintro ⟨id, d⟩ hx
    obtain ⟨tr, h1, -⟩ := mem_flat.1 hx
    exact w.nonneg _ h1
  obtain ⟨vb, rb⟩ : Valid m (begin_ m) ∧ rest (begin_ m) = _ := beginOfTrajectory_spec w 0
  obtain ⟨ve, re⟩ : Valid m (end_ m) ∧ rest (end_ m) = _ := beginOfTrajectory_spec w intMax
  have rb' : rest (begin_ m) = flat m := by
    rw [rb, List.filter_eq_self]
    intro x hx
    simpa using hnn x hx
  have re' : rest (end_ m) = [] := by
    rw [re, List.filter_eq_nil_iff]
    intro x hx
    have := hsm x hx
    simp; omega
  refine ⟨q, ?_, flat m, flat_sorted w, ?_, ?_, ?_, ?_, size_eq m, ?_, ?_, ?_, ?_⟩
  · intro id
    rw [← q]
    simp only [contains, at?]
    cases SMap.get? id.1 m <;> simp
  · intro id d
    rw [← at?_iff_mem w, q]
  · exact forLoop_of w.nonempty ve _ _ vb (by rw [rb', re']; simp)
  · exact backLoop_of w.nonempty vb _ _ ve (by rw [rb', re']; simp)
  · intro t
    obtain ⟨v1, r1⟩ := beginOfTrajectory_spec w t
    obtain ⟨v2, r2⟩ := beginOfTrajectory_spec w (t + 1)
    refine forLoop_of w.nonempty v2 _ _ v1 ?_
    rw [r1, r2]
    exact filter_ge_split _ (flat_sorted w) t
  · intro t
    rw [filter_traj_of_get w]
    simp only [sizeOfTrajectoryOrZero]
    cases SMap.get? t m <;> simp
  · rw [empty, eq_iff vb ve]
    show (rest (begin_ m)).length = (rest (end_ m)).length ↔ _
    rw [rb', re']
    simp
  · have := w.sorted
    simpa [trajectoryIds, List.pairwise_map, SMap.Sorted] using this
  · intro t
    simp only [trajectoryIds, List.mem_map]
    constructor
    · rintro ⟨⟨t', tr⟩, he, rfl⟩
      obtain ⟨⟨i, d⟩, hx⟩ := List.exists_mem_of_ne_nil _ (w.nonempty _ he)
      exact ⟨i, d, by rw [← q, at?_iff_mem w, mem_flat]; exact ⟨tr, he, hx⟩⟩
    · rintro ⟨i, d, hc⟩
      rw [← q, at?_iff_mem w, mem_flat] at hc
      obtain ⟨tr, h1, -⟩ := hc
      exact ⟨_, h1, rfl⟩

/-- `find` returns a dereferenceable iterator to the element exactly if it is stored, and the end
iterator otherwise. -/
theorem find_correct {ops : List (Op D)} {m : Map D} {h : List (Ev D)} (hr : Run ops m h) (hb : SmallIds h) (id : Id) :
    (∀ d, current h id = some d → (find m id).deref = some (id, d) ∧ (find m id).eq (end_ m) = false) ∧
    (current h id = none → (find m id).eq (end_ m) = true) := by
  obtain ⟨w, q⟩ := run_spec hr
  obtain ⟨ve, re⟩ : Valid m (end_ m) ∧ rest (end_ m) = _ := beginOfTrajectory_spec w intMax
  have re' : rest (end_ m) = [] := by
    rw [re, List.filter_eq_nil_iff]
    rintro ⟨id, d⟩ hx
    have := (at?_iff_mem w).2 hx
    rw [q] at this
    have := hb _ _ (stored_of_current this)
    simp; omega
  refine ⟨fun d hc => ?_, fun hc => ?_⟩
  · rw [← q] at hc
    have hm := (at?_iff_mem w).1 hc
    obtain ⟨v, r⟩ := find_spec w hm
    have : ∃ L, rest (find m id) = (id, d) :: L := by
      rw [r]
      have hs := flat_sorted w
      generalize flat m = F at hm hs
      induction F with
      | nil => cases hm
      | cons x F ih =>
        obtain ⟨h1, h2⟩ := List.pairwise_cons.1 hs
        rcases List.mem_cons.1 hm with rfl | hm
        · exact ⟨_, List.filter_cons_of_pos (by simp)⟩
        · have := h1 _ hm
          simp only [idLt] at this
          obtain ⟨L, hL⟩ := ih hm h2
          refine ⟨L, ?_⟩
          rw [List.filter_cons_of_neg, hL]
          rw [decide_eq_true_eq]
          rintro (e | e)
          · rw [e] at this; omega
          · simp only [idLt] at e; omega
    obtain ⟨L, hL⟩ := this
    refine ⟨(next_spec w.nonempty v hL).1, ?_⟩
    rw [Bool.eq_false_iff, ne_eq, eq_iff v ve]
    show ¬ (_ = (rest (end_ m)).length)
    rw [re', hL]; simp
  · rw [← q] at hc
    obtain ⟨v, r⟩ := find_missing hc
    rw [eq_iff v ve]
    show _ = (rest (end_ m)).length
    rw [re', r]

/-- Which operations abort, in terms of the history: `Insert` on a stored id or a negative one, `Trim` or
assignment on an id that is not stored. -/
theorem abort_conditions {ops : List (Op D)} {m : Map D} {h : List (Ev D)} (hr : Run ops m h) (id : Id) (d : D) :
    (insert m id d = none ↔ id.1 < 0 ∨ id.2 < 0 ∨ (current h id).isSome) ∧
    (trim m id = none ↔ current h id = none) ∧ (assign m id d = none ↔ current h id = none) := by
  obtain ⟨w, q⟩ := run_spec hr
  rw [← q]
  refine ⟨?_, ?_, ?_⟩
  · simp only [insert]
    rw [at?_trajOrNew]
    by_cases h1 : id.1 < 0
    · simp [h1]
    by_cases h2 : id.2 < 0
    · simp [h2]
    simp only [h1, h2, or_self, if_false, false_or]
    cases at? m id <;> simp
  · simp only [trim, at?]
    cases SMap.get? id.1 m with
    | none => simp
    | some tr =>
      simp only [Option.bind_some]
      cases SMap.get? id.2 tr.data with
      | none => simp
      | some v => simp only; split <;> simp
  · simp only [assign, at?]
    cases SMap.get? id.1 m with
    | none => simp
    | some tr =>
      simp only [Option.bind_some]
      cases SMap.get? id.2 tr.data <;> simp

/-- In the history a trajectory that had held data became empty at some point. -/
def Emptied (h : List (Ev D)) (t : Int) : Prop :=
  ∃ h1 h2, h = h1 ++ h2 ∧ (∃ i d, Ev.stored (t, i) d ∈ h1) ∧ ∀ i, current h1 (t, i) = none

/-- **C09 is false as stated.**  Append, trim the only element, append again: the same id is returned. -/
theorem appended_id_reused : ∃ (m1 m2 m3 : Map Nat) (id : Id),
    append [] 0 10 = some (m1, id) ∧ trim m1 id = some m2 ∧ append m2 0 20 = some (m3, id) ∧
    at? m3 id = some 20 := by
  refine ⟨_, _, _, _, rfl, rfl, rfl, rfl⟩

theorem Emptied.mono {h h' : List (Ev D)} {t : Int} (he : Emptied h t) : Emptied (h ++ h') t := by
  obtain ⟨h1, h2, rfl, a, b⟩ := he
  exact ⟨h1, h2 ++ h', by simp, a, b⟩

theorem last_of_sorted {data : List (Int × D)} (hs : SMap.Sorted data) {i : Int} (hi : ∃ d, (i, d) ∈ data)
    (hmax : ∀ e ∈ data, e.1 ≤ i) : nextIndex data = i + 1 := by
  obtain ⟨d, hd⟩ := hi
  rcases List.eq_nil_or_concat data with rfl | ⟨l, x, rfl⟩
  · cases hd
  · rw [List.concat_eq_append] at *
    have hx := hmax x (by simp)
    have : i ≤ x.1 := by
      rcases List.mem_append.1 hd with h | h
      · exact le_of_lt ((List.pairwise_append.1 hs).2.2 _ h x (by simp))
      · simp only [List.mem_singleton] at h; rw [← h]
    simp only [nextIndex, List.getLast?_append, List.getLast?_singleton, Option.some_or]
    omega

/-- Invariant behind C09: as long as the trajectory was never emptied, every index ever stored is below
the next index, if appending is still permitted. -/
theorem indices_below_next {ops : List (Op D)} {m : Map D} {h : List (Ev D)} (hr : Run ops m h) (t : Int)
    (hne : ¬ Emptied h t) (hc : (trajOrNew m t).canAppend = true) :
    ∀ i d, Ev.stored (t, i) d ∈ h → i < nextIndex (trajOrNew m t).data := by
  induction hr with
  | nil => intro i d hm; cases hm
  | snoc hr' hs ih =>
    rename_i ops m m' h o e
    have hne' : ¬ Emptied h t := fun he => hne he.mono
    obtain ⟨w, q⟩ := run_spec hr'
    obtain ⟨w', q'⟩ := run_spec (hr'.snoc hs)
    have tn : ∀ t' tr, trajOrNew (SMap.put t' tr m) t = if t' = t then tr else trajOrNew m t := by
      intro t' tr; simp only [trajOrNew, SMap.get?_put]; split <;> rfl
    cases o with
    | append t' d =>
      simp only [step, Option.map_eq_some_iff, Prod.mk.injEq] at hs
      obtain ⟨⟨m1, id1⟩, h1, rfl, rfl⟩ := hs
      simp only [append] at h1
      split at h1
      · cases h1
      split at h1
      · rename_i hca
        simp only [Option.some.injEq, Prod.mk.injEq] at h1
        obtain ⟨rfl, rfl⟩ := h1
        rw [tn] at hc ⊢
        by_cases ht : t' = t
        · subst ht
          simp only [if_true] at hc ⊢
          have ih := ih hne' hca
          have hsd := trajOrNew_sorted w t'
          have : nextIndex (SMap.put (nextIndex (trajOrNew m t').data) d (trajOrNew m t').data) =
              nextIndex (trajOrNew m t').data + 1 := by
            apply last_of_sorted (SMap.sorted_put hsd)
            · exact ⟨d, SMap.mem_of_get? (by rw [SMap.get?_put, if_pos rfl])⟩
            · intro e he
              rcases SMap.mem_put he with rfl | he
              · exact le_refl _
              · exact le_of_lt (lt_nextIndex hsd he)
          rw [this]
          intro i d' hm
          rcases List.mem_append.1 hm with hm | hm
          · have := ih i d' hm; omega
          · simp only [List.mem_singleton, Ev.stored.injEq, Prod.mk.injEq] at hm
            omega
        · simp only [if_neg ht] at hc ⊢
          intro i d' hm
          rcases List.mem_append.1 hm with hm | hm
          · exact ih hne' hc i d' hm
          · simp only [List.mem_singleton, Ev.stored.injEq, Prod.mk.injEq] at hm
            exact absurd hm.1.1.symm ht
      · cases h1
    | insert id d =>
      simp only [step, Option.map_eq_some_iff, Prod.mk.injEq] at hs
      obtain ⟨m1, h1, rfl, rfl⟩ := hs
      simp only [insert] at h1
      split at h1
      · cases h1
      split at h1
      · cases h1
      simp only [Option.some.injEq] at h1
      subst h1
      rw [tn] at hc ⊢
      by_cases ht : id.1 = t
      · simp [if_pos ht] at hc
      · simp only [if_neg ht] at hc ⊢
        intro i d' hm
        rcases List.mem_append.1 hm with hm | hm
        · exact ih hne' hc i d' hm
        · simp only [List.mem_singleton, Ev.stored.injEq] at hm
          exact absurd (by rw [← hm.1]) ht
    | assign id d =>
      simp only [step, Option.map_eq_some_iff, Prod.mk.injEq] at hs
      obtain ⟨m1, h1, rfl, rfl⟩ := hs
      simp only [assign] at h1
      split at h1
      · cases h1
      rename_i tr hg
      split at h1
      · cases h1
      rename_i v hg2
      simp only [Option.some.injEq] at h1
      subst h1
      rw [tn] at hc ⊢
      by_cases ht : id.1 = t
      · simp only [if_pos ht] at hc ⊢
        have htr : trajOrNew m t = tr := by simp [trajOrNew, ← ht, hg]
        have hsd : SMap.Sorted tr.data := w.dsorted _ (SMap.mem_of_get? hg)
        rw [htr] at ih
        have ih := ih hne' hc
        have hpe : ∀ k, (∃ x, SMap.get? k (SMap.put id.2 d tr.data) = some x) ↔ ∃ x, SMap.get? k tr.data = some x := by
          intro k
          rw [SMap.get?_put]
          split
          · rename_i hk; subst hk; simp [hg2]
          · rfl
        intro i d' hm
        have key : i < nextIndex tr.data := by
          rcases List.mem_append.1 hm with hm | hm
          · exact ih i d' hm
          · simp only [List.mem_singleton, Ev.stored.injEq] at hm
            have hi : i = id.2 := by rw [← hm.1]
            rw [hi]
            exact lt_nextIndex hsd (SMap.mem_of_get? hg2)
        -- the last index did not change
        rcases List.eq_nil_or_concat tr.data with h0 | ⟨l, x, hx⟩
        · rw [h0] at hg2; simp [SMap.get?] at hg2
        have e1 : nextIndex tr.data = x.1 + 1 := by simp [nextIndex, hx]
        have e2 : (nextIndex (SMap.put id.2 d tr.data)) = x.1 + 1 := by
          apply last_of_sorted (SMap.sorted_put hsd)
          · obtain ⟨y, hy⟩ := (hpe x.1).2 ⟨x.2, SMap.get?_of_mem hsd (by rw [hx]; simp)⟩
            exact ⟨y, SMap.mem_of_get? hy⟩
          · intro e he
            have h2 : ∃ y, SMap.get? e.1 tr.data = some y :=
              (hpe e.1).1 ⟨e.2, SMap.get?_of_mem (SMap.sorted_put hsd) he⟩
            obtain ⟨y, hy⟩ := h2
            have := lt_nextIndex hsd (SMap.mem_of_get? hy)
            simp only at this
            omega
        rw [e2]; omega
      · simp only [if_neg ht] at hc ⊢
        intro i d' hm
        rcases List.mem_append.1 hm with hm | hm
        · exact ih hne' hc i d' hm
        · simp only [List.mem_singleton, Ev.stored.injEq] at hm
          exact absurd (by rw [← hm.1]) ht
    | trim id =>
      simp only [step, Option.map_eq_some_iff, Prod.mk.injEq] at hs
      obtain ⟨m1, h1, rfl, rfl⟩ := hs
      intro i d' hm
      have hm : Ev.stored (t, i) d' ∈ h := by
        rcases List.mem_append.1 hm with hm | hm
        · exact hm
        · simp at hm
      simp only [trim] at h1
      split at h1
      · cases h1
      rename_i tr hg
      split at h1
      · cases h1
      rename_i v hg2
      have hsd : SMap.Sorted tr.data := w.dsorted _ (SMap.mem_of_get? hg)
      split at h1
      · simp only [Option.some.injEq] at h1
        subst h1
        by_cases ht : id.1 = t
        · exfalso
          apply hne
          refine ⟨h ++ [.trimmed id], [], by simp, ⟨i, d', List.mem_append_left _ hm⟩, fun k => ?_⟩
          rw [← q', at?_erase, if_pos ht]
        · have : trajOrNew (SMap.erase id.1 m) t = trajOrNew m t := by
            simp only [trajOrNew, SMap.get?_erase, if_neg ht]
          rw [this] at hc ⊢
          exact ih hne' hc i d' hm
      · rename_i hemp
        simp only [Option.some.injEq] at h1
        subst h1
        rw [tn] at hc ⊢
        by_cases ht : id.1 = t
        · simp only [if_pos ht] at hc ⊢
          split at hc
          · cases hc
          rename_i hl
          have htr : trajOrNew m t = tr := by simp [trajOrNew, ← ht, hg]
          rw [htr] at ih
          have ih := ih hne' hc i d' hm
          rcases List.eq_nil_or_concat tr.data with h0 | ⟨l, x, hx⟩
          · rw [h0] at hg2; simp [SMap.get?] at hg2
          have e1 : nextIndex tr.data = x.1 + 1 := by simp [nextIndex, hx]
          have hxi : x.1 ≠ id.2 := by
            intro hxe
            apply hl
            simp [isLast, hx, hxe]
          have e2 : nextIndex (SMap.erase id.2 tr.data) = x.1 + 1 := by
            apply last_of_sorted (SMap.sorted_erase hsd)
            · exact ⟨x.2, SMap.mem_erase.2 ⟨by rw [hx]; simp, hxi⟩⟩
            · intro e he
              have := lt_nextIndex hsd (SMap.mem_erase.1 he).1
              omega
          rw [e2]; omega
        · simp only [if_neg ht] at hc ⊢
          exact ih hne' hc i d' hm

/-- **C09, the part that holds.**  As long as the trajectory was never emptied by trimming, an appended id
differs from every id ever stored before.  Missing: after the last element of a trajectory was trimmed the
map forgets the trajectory and starts again with index 0 (`appended_id_reused`). -/
theorem appended_id_is_new_partial {ops : List (Op D)} {m m' : Map D} {h : List (Ev D)} (hr : Run ops m h) {t : Int}
    {d : D} {id : Id} (ha : append m t d = some (m', id)) (hne : ¬ Emptied h t) :
    ∀ d', Ev.stored id d' ∉ h := by
  intro d' hm
  simp only [append] at ha
  split at ha
  · cases ha
  split at ha
  · rename_i hca
    simp only [Option.some.injEq, Prod.mk.injEq] at ha
    obtain ⟨-, rfl⟩ := ha
    have := indices_below_next hr t hne hca _ _ hm
    omega
  · cases ha

/-- An appended id is never that of a currently stored element. -/
theorem appended_id_not_stored {ops : List (Op D)} {m m' : Map D} {h : List (Ev D)} (hr : Run ops m h) {t : Int}
    {d : D} {id : Id} (ha : append m t d = some (m', id)) : current h id = none := by
  obtain ⟨w, q⟩ := run_spec hr
  rw [← q]
  exact (append_spec w ha).2.2.1

/-- `lower_bound` as a position: what follows are the elements of the trajectory not before `tm` and the later trajectories. -/
theorem lowerBound_rest {T : Type} [LinearOrder T] (time : D → T) {m : Map D} (w : WF m) (t : Int) (tm : T)
    (hmono : ∀ i j a b, at? m (t, i) = some a → at? m (t, j) = some b → i ≤ j → time a ≤ time b) :
    ∃ it, lowerBound time m t tm = some it ∧ Valid m it ∧
      rest it = (flat m).filter (fun x => decide (x.1.1 = t ∧ tm ≤ time x.2) || decide (t + 1 ≤ x.1.1)) := by
  obtain ⟨ve, re⟩ := beginOfTrajectory_spec w (t + 1)
  have hend : (∀ i d, at? m (t, i) = some d → time d < tm) →
      rest (endOfTrajectory m t) = (flat m).filter (fun x => decide (x.1.1 = t ∧ tm ≤ time x.2) || decide (t + 1 ≤ x.1.1)) := by
    intro hall
    rw [endOfTrajectory, re]
    apply List.filter_congr
    rintro ⟨⟨u, i⟩, d⟩ hx
    have hat := (at?_iff_mem w).2 hx
    have : ¬(u = t ∧ tm ≤ time d) := by
      rintro ⟨rfl, h2⟩
      exact absurd h2 (not_le.2 (hall i d hat))
    simp [this]
  simp only [lowerBound]
  by_cases hsz : sizeOfTrajectoryOrZero m t = 0
  · rw [if_pos hsz]
    refine ⟨_, rfl, ve, hend ?_⟩
    intro i d hc
    exfalso
    rw [at?_iff_mem w, mem_flat] at hc
    obtain ⟨tr, h1, h2⟩ := hc
    simp only [sizeOfTrajectoryOrZero, SMap.get?_of_mem w.sorted h1] at hsz
    have := List.length_pos_of_mem h2
    omega
  · rw [if_neg hsz]
    cases hg : SMap.get? t m with
    | none => simp [sizeOfTrajectoryOrZero, hg] at hsz
    | some tr =>
      have htm := SMap.mem_of_get? hg
      have hsd := w.dsorted _ htm
      have hcur : ∀ i d, (i, d) ∈ tr.data ↔ at? m (t, i) = some d := by
        intro i d
        rw [at?_iff_mem w, mem_flat]
        constructor
        · intro hx; exact ⟨tr, htm, hx⟩
        · rintro ⟨tr', h1, h2⟩
          have := SMap.get?_of_mem w.sorted h1
          rw [hg] at this
          simp only [Option.some.injEq] at this
          rw [this]; exact h2
      have hsz2 : 0 < tr.data.length := by
        simp only [sizeOfTrajectoryOrZero, hg] at hsz; omega
      have hmono' : ∀ (i j : Nat) (a b : Int × D), tr.data[i]? = some a → tr.data[j]? = some b → i ≤ j → time a.2 ≤ time b.2 := by
        intro i j a b ha hb hij
        have h1 := (hcur a.1 a.2).1 (List.mem_of_getElem? ha)
        have h2 := (hcur b.1 b.2).1 (List.mem_of_getElem? hb)
        refine hmono a.1 b.1 _ _ h1 h2 ?_
        rcases Nat.lt_or_eq_of_le hij with hlt | heq
        · exact le_of_lt (sorted_get hsd ha hb hlt)
        · subst heq; rw [ha] at hb; simp only [Option.some.injEq] at hb; rw [hb]
      have hlen : tr.data.length - 1 < tr.data.length := by omega
      have hlast : tr.data.getLast? = some tr.data[tr.data.length - 1] := by
        rw [List.getLast?_eq_getElem?]; exact List.getElem?_eq_getElem hlen
      have elast := List.getElem?_eq_getElem hlen
      simp only [hlast]
      by_cases hlt : time tr.data[tr.data.length - 1].2 < tm
      · rw [if_pos hlt]
        refine ⟨_, rfl, ve, hend ?_⟩
        intro i d hc
        obtain ⟨k, hk, hke⟩ := List.getElem_of_mem ((hcur i d).2 hc)
        have := hmono' k (tr.data.length - 1) _ _ (List.getElem?_eq_getElem hk) elast (by omega)
        rw [hke] at this
        exact lt_of_le_of_lt this hlt
      · rw [if_neg hlt]
        obtain ⟨p, hp, hpl, hp1, hp2⟩ := lowerBoundLoop_spec time hsd hmono' tm tr.data.length 0 (tr.data.length - 1)
          (by omega) (by omega) hlen (by omega) (by
            intro a ha; rw [elast] at ha; simp only [Option.some.injEq] at ha; rw [← ha]; exact not_lt.1 hlt)
        have ep := List.getElem?_eq_getElem hpl
        simp only [hp, ep]
        set e := tr.data[p] with he
        have hmem : (e.1, e.2) ∈ tr.data := List.mem_of_getElem? ep
        have hflat : (((t, e.1) : Id), e.2) ∈ flat m := mem_flat.2 ⟨tr, htm, hmem⟩
        obtain ⟨v, r⟩ := find_spec w hflat
        refine ⟨_, rfl, v, ?_⟩
        rw [r]
        apply List.filter_congr
        rintro ⟨⟨u, i⟩, d⟩ hx
        have hat := (at?_iff_mem w).2 hx
        rw [← Bool.decide_or, decide_eq_decide]
        constructor
        · intro h2
          by_cases hu : u = t
          · subst hu
            left
            obtain ⟨k, hk, hke⟩ := List.getElem_of_mem ((hcur i d).2 hat)
            have hpk : p ≤ k := by
              by_contra hc
              have := sorted_get hsd (List.getElem?_eq_getElem hk) ep (by omega)
              rw [hke] at this
              simp only [idLt, Prod.mk.injEq, true_and, lt_irrefl, false_or] at h2
              simp only at this
              omega
            have := hmono' p k _ _ ep (List.getElem?_eq_getElem hk) hpk
            rw [hke] at this
            exact ⟨rfl, le_trans (hp2 _ ep) this⟩
          · right
            rcases h2 with h2 | h2
            · simp only [Prod.mk.injEq] at h2; exact absurd h2.1 hu
            · simp only [idLt] at h2 ⊢; omega
        · rintro (⟨rfl, h4⟩ | h4)
          · obtain ⟨k, hk, hke⟩ := List.getElem_of_mem ((hcur i d).2 hat)
            have hpk : p ≤ k := by
              by_contra hc
              have := hp1 k _ (by omega) (List.getElem?_eq_getElem hk)
              rw [hke] at this
              exact absurd h4 (not_le.2 this)
            rcases Nat.lt_or_eq_of_le hpk with hlt | heq
            · have := sorted_get hsd ep (List.getElem?_eq_getElem hk) hlt
              rw [hke] at this
              right; right; exact ⟨rfl, this⟩
            · subst heq
              left
              have : e = (i, d) := hke
              rw [this]
          · right; left
            simp only at h4 ⊢; omega

/-- **C10.** If the elements of a trajectory are in non-decreasing time order then `lower_bound` does not
abort and a loop from its result to the end of the trajectory visits exactly the elements of that
trajectory whose time is not before `tm`, in order: it is the first such element or the end. -/
theorem lower_bound_correct {T : Type} [LinearOrder T] (time : D → T) {ops : List (Op D)} {m : Map D} {h : List (Ev D)}
    (hr : Run ops m h) (t : Int) (tm : T)
    (hmono : ∀ i j a b, current h (t, i) = some a → current h (t, j) = some b → i ≤ j → time a ≤ time b) :
    ∃ it L, lowerBound time m t tm = some it ∧ ForLoop (endOfTrajectory m t) it L ∧
      L.Pairwise (fun a b => idLt a.1 b.1) ∧
      ∀ id d, (id, d) ∈ L ↔ current h id = some d ∧ id.1 = t ∧ tm ≤ time d := by
  obtain ⟨w, q⟩ := run_spec hr
  obtain ⟨ve, re⟩ := beginOfTrajectory_spec w (t + 1)
  obtain ⟨it, hit, v, r⟩ := lowerBound_rest time w t tm (by simpa only [q] using hmono)
  refine ⟨it, (flat m).filter (fun x => decide (x.1.1 = t ∧ tm ≤ time x.2)), hit, ?_, (flat_sorted w).filter _, ?_⟩
  · refine forLoop_of w.nonempty ve _ _ v ?_
    have hsp := filter_ge_split (rest it) (by rw [r]; exact (flat_sorted w).filter _) t
    rw [r, List.filter_filter, List.filter_filter, List.filter_filter] at hsp
    rw [r]
    show _ = _ ++ rest (endOfTrajectory m t)
    rw [endOfTrajectory, re]
    refine Eq.trans ?_ (hsp.trans ?_)
    · apply List.filter_congr
      intro x _
      by_cases h1 : x.1.1 = t <;> by_cases h2 : t + 1 ≤ x.1.1 <;> simp [h1, h2] <;> omega
    · congr 1
      · apply List.filter_congr
        intro x _
        by_cases h1 : x.1.1 = t
        · simp [h1]
        · simp [h1]
      · apply List.filter_congr
        intro x _
        by_cases h2 : t + 1 ≤ x.1.1 <;> simp [h2]
  · intro id d
    rw [List.mem_filter, ← at?_iff_mem w, q]
    simp

/-- Non-vacuity: a history with two trajectories, a gap and an overwritten value. -/
def demoOps : List (Op Nat) :=
  [.append 0 1, .append 0 2, .append 0 5, .insert (3, 7) 9, .trim (0, 1), .assign (3, 7) 8, .append 0 6]

example : ∃ m h, Run demoOps m h ∧ SmallIds h ∧ ¬ Emptied h 0 ∧ (append m 0 3).isSome ∧
    (∀ i j a b, current h (0, i) = some a → current h (0, j) = some b → i ≤ j → id a ≤ id b) := by
  have e1 := Run.snoc (D := Nat) .nil (o := .append 0 1) rfl
  have e2 := e1.snoc (o := .append 0 2) rfl
  have e3 := e2.snoc (o := .append 0 5) rfl
  have e4 := e3.snoc (o := .insert (3, 7) 9) rfl
  have e5 := e4.snoc (o := .trim (0, 1)) rfl
  have e6 := e5.snoc (o := .assign (3, 7) 8) rfl
  have e7 : Run demoOps [(0, ⟨true, [(0, 1), (2, 5), (3, 6)]⟩), (3, ⟨false, [(7, 8)]⟩)]
      [.stored (0, 0) 1, .stored (0, 1) 2, .stored (0, 2) 5, .stored (3, 7) 9, .trimmed (0, 1),
        .stored (3, 7) 8, .stored (0, 3) 6] := e6.snoc (o := .append 0 6) rfl
  clear e1 e2 e3 e4 e5 e6
  have cur : ∀ i a, current ([.stored (0, 0) 1, .stored (0, 1) 2, .stored (0, 2) 5, .stored (3, 7) 9, .trimmed (0, 1),
      .stored (3, 7) 8, .stored (0, 3) 6] : List (Ev Nat)) (0, i) = some a → (i = 0 ∧ a = 1) ∨ (i = 2 ∧ a = 5) ∨ (i = 3 ∧ a = 6) := by
    intro i a h
    simp only [current, List.foldl, Ev.effect, Prod.mk.injEq, true_and] at h
    split at h
    · simp_all
    · split at h
      · simp_all
      · norm_num at h
        split at h
        · simp_all
        · split at h
          · simp_all
          · split at h
            · simp_all
            · simp_all
  refine ⟨_, _, e7, ?_, ?_, ?_, ?_⟩
  · intro id d hd
    simp only [List.mem_cons, Ev.stored.injEq, reduceCtorEq, List.not_mem_nil, or_false, false_or] at hd
    rcases hd with h | h | h | h | h | h <;> rw [h.1] <;> simp [intMax]
  · rintro ⟨h1, h2, he, ⟨i, d, hs⟩, hc⟩
    have h0 : ∀ e ∈ ([.stored (0, 0) 1, .stored (0, 1) 2, .stored (0, 2) 5, .stored (3, 7) 9, .trimmed (0, 1),
      .stored (3, 7) 8, .stored (0, 3) 6] : List (Ev Nat)), e ≠ .trimmed (0, 0) := by simp
    cases h1 with
    | nil => cases hs
    | cons x h1 =>
      simp only [List.cons_append, List.cons.injEq] at he
      obtain ⟨rfl, he⟩ := he
      have key : ∀ (l : List (Ev Nat)) (acc : Option Nat), acc.isSome → (∀ e ∈ l, e ≠ .trimmed (0, 0)) →
          (l.foldl (Ev.effect (0, 0)) acc).isSome := by
        intro l
        induction l with
        | nil => intro acc h _; exact h
        | cons e l ih =>
          intro acc h hl
          rw [List.foldl_cons]
          apply ih
          · cases e with
            | stored id d => simp only [Ev.effect]; split <;> simp_all
            | trimmed id =>
              simp only [Ev.effect]; split
              · rename_i h'; subst h'; exact absurd rfl (hl _ List.mem_cons_self)
              · exact h
          · intro e he; exact hl e (List.mem_cons_of_mem _ he)
      have := key h1 (some 1) rfl (by
        intro e hm
        exact h0 e (by rw [he]; exact List.mem_cons_of_mem _ (List.mem_append_left _ hm)))
      have h2 := hc 0
      simp only [current, List.foldl_cons, Ev.effect, if_true] at h2
      rw [h2] at this
      cases this
  · rfl
  · intro i j a b ha hb hij
    have := cur i a ha
    have := cur j b hb
    simp only [id]
    omega

end Verif.MapById
