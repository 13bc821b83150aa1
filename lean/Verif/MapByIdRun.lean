import Verif.MapByIdLemmas

/-! Operation histories of `MapById`. -/

namespace Verif.MapById

set_option linter.unusedSectionVars false
set_option linter.unusedSimpArgs false

variable {D : Type}

/-- The modifying operations. -/
inductive Op (D : Type) where
  | append (t : Int) (d : D)
  | insert (id : Id) (d : D)
  | assign (id : Id) (d : D)
  | trim (id : Id)

/-- What an operation did, seen from outside. -/
inductive Ev (D : Type) where
  | stored (id : Id) (d : D)
  | trimmed (id : Id)

/-- One operation on the map. -/
def step (m : Map D) : Op D → Option (Map D × Ev D)
  | .append t d => (append m t d).map (fun r => (r.1, .stored r.2 d))
  | .insert id d => (insert m id d).map (fun r => (r, .stored id d))
  | .assign id d => (assign m id d).map (fun r => (r, .stored id d))
  | .trim id => (trim m id).map (fun r => (r, .trimmed id))

/-- A history of operations on an initially empty map that did not abort, with its events. -/
inductive Run : List (Op D) → Map D → List (Ev D) → Prop where
  | nil : Run [] [] []
  | snoc {ops : List (Op D)} {m m' : Map D} {h : List (Ev D)} {o : Op D} {e : Ev D} :
      Run ops m h → step m o = some (m', e) → Run (ops ++ [o]) m' (h ++ [e])

/-- Effect of an event on the value expected under `id`. -/
def Ev.effect (id : Id) (acc : Option D) : Ev D → Option D
  | .stored id' d => if id' = id then some d else acc
  | .trimmed id' => if id' = id then none else acc

/-- The value last stored under `id` and not trimmed since. -/
def current (h : List (Ev D)) (id : Id) : Option D := h.foldl (Ev.effect id) none

theorem current_snoc (h : List (Ev D)) (e : Ev D) (id : Id) : current (h ++ [e]) id = e.effect id (current h id) := by
  simp [current]

theorem at?_put {m : Map D} {t : Int} {tr : Traj D} {id : Id} :
    at? (SMap.put t tr m) id = if t = id.1 then SMap.get? id.2 tr.data else at? m id := by
  simp only [at?, SMap.get?_put]
  split <;> simp

theorem at?_erase {m : Map D} {t : Int} {id : Id} :
    at? (SMap.erase t m) id = if t = id.1 then none else at? m id := by
  simp only [at?, SMap.get?_erase]
  split <;> simp

theorem at?_trajOrNew {m : Map D} {id : Id} : SMap.get? id.2 (trajOrNew m id.1).data = at? m id := by
  simp only [trajOrNew, at?]
  cases SMap.get? id.1 m with
  | none => rfl
  | some tr => rfl

theorem trajOrNew_sorted {m : Map D} (hm : WF m) (t : Int) : SMap.Sorted (trajOrNew m t).data := by
  unfold trajOrNew
  cases h : SMap.get? t m with
  | none => exact SMap.sorted_nil
  | some tr => exact hm.dsorted _ (SMap.mem_of_get? h)

theorem put_ne_nil {V : Type} {k : Int} {v : V} {l : List (Int × V)} : SMap.put k v l ≠ [] := by
  cases l with
  | nil => simp [SMap.put]
  | cons e l => obtain ⟨k', v'⟩ := e; simp only [SMap.put]; split <;> (try split) <;> simp

theorem wf_put {m : Map D} (hm : WF m) {t : Int} {tr : Traj D} (h0 : 0 ≤ t) (h1 : tr.data ≠ [])
    (h2 : SMap.Sorted tr.data) (h3 : ∀ x ∈ tr.data, 0 ≤ x.1) : WF (SMap.put t tr m) := by
  refine ⟨SMap.sorted_put hm.sorted, ?_, ?_, ?_, ?_⟩ <;>
  · intro e he
    rcases SMap.mem_put he with rfl | he
    · assumption
    · first | exact hm.nonneg e he | exact hm.nonempty e he | exact hm.dsorted e he | exact hm.inonneg e he

theorem wf_erase {m : Map D} (hm : WF m) {t : Int} : WF (SMap.erase t m) := by
  refine ⟨SMap.sorted_erase hm.sorted, ?_, ?_, ?_, ?_⟩ <;>
  · intro e he
    have he := (SMap.mem_erase.1 he).1
    first | exact hm.nonneg e he | exact hm.nonempty e he | exact hm.dsorted e he | exact hm.inonneg e he

theorem lt_nextIndex {data : List (Int × D)} (hs : SMap.Sorted data) {e : Int × D} (he : e ∈ data) :
    e.1 < nextIndex data := by
  rcases List.eq_nil_or_concat data with rfl | ⟨l, x, rfl⟩
  · cases he
  · simp only [nextIndex, List.concat_eq_append, List.getLast?_append, List.getLast?_singleton, Option.some_or]
    rw [List.concat_eq_append] at he hs
    rcases List.mem_append.1 he with h | h
    · have := (List.pairwise_append.1 hs).2.2 _ h x (by simp)
      omega
    · simp only [List.mem_singleton] at h; subst h; omega

theorem trajOrNew_nonneg {m : Map D} (hm : WF m) (t : Int) : ∀ x ∈ (trajOrNew m t).data, 0 ≤ x.1 := by
  unfold trajOrNew
  cases h : SMap.get? t m with
  | none => intro x hx; cases hx
  | some tr => exact hm.inonneg _ (SMap.mem_of_get? h)

theorem put_nonneg {k : Int} {v : D} {l : List (Int × D)} (hk : 0 ≤ k) (hl : ∀ x ∈ l, 0 ≤ x.1) :
    ∀ x ∈ SMap.put k v l, 0 ≤ x.1 := by
  intro x hx
  rcases SMap.mem_put hx with rfl | hx
  · exact hk
  · exact hl x hx

theorem nextIndex_nonneg {data : List (Int × D)} (h : ∀ x ∈ data, 0 ≤ x.1) : 0 ≤ nextIndex data := by
  unfold nextIndex
  cases hl : data.getLast? with
  | none => exact le_refl _
  | some e =>
    have := h e (List.mem_of_getLast? hl)
    simp only
    omega

theorem get?_nextIndex {data : List (Int × D)} (hs : SMap.Sorted data) : SMap.get? (nextIndex data) data = none := by
  rw [SMap.get?_eq_none]
  intro e he
  exact ne_of_lt (lt_nextIndex hs he)

theorem append_spec {m m' : Map D} (hm : WF m) {t : Int} {d : D} {id : Id} (h : append m t d = some (m', id)) :
    WF m' ∧ id.1 = t ∧ at? m id = none ∧ (∀ id', at? m' id' = if id = id' then some d else at? m id') := by
  simp only [append] at h
  split at h
  · cases h
  · rename_i ht
    split at h
    · simp only [Option.some.injEq, Prod.mk.injEq] at h
      obtain ⟨rfl, rfl⟩ := h
      have hs := trajOrNew_sorted hm t
      refine ⟨wf_put hm (not_lt.1 ht) put_ne_nil (SMap.sorted_put hs)
        (put_nonneg (nextIndex_nonneg (trajOrNew_nonneg hm t)) (trajOrNew_nonneg hm t)), rfl, ?_, ?_⟩
      · rw [← at?_trajOrNew]; exact get?_nextIndex hs
      · intro id'
        rw [at?_put]
        by_cases h1 : t = id'.1
        · rw [if_pos h1, SMap.get?_put]
          by_cases h2 : nextIndex (trajOrNew m t).data = id'.2
          · rw [if_pos h2, if_pos (by rw [h2, h1])]
          · rw [if_neg h2, if_neg (by intro h; exact h2 (by rw [← h])), h1, at?_trajOrNew]
        · rw [if_neg h1, if_neg (by intro h; exact h1 (by rw [← h]))]
    · cases h

theorem insert_spec {m m' : Map D} (hm : WF m) {d : D} {id : Id} (h : insert m id d = some m') :
    WF m' ∧ at? m id = none ∧ (∀ id', at? m' id' = if id = id' then some d else at? m id') := by
  simp only [insert] at h
  split at h
  · cases h
  · rename_i ht
    rw [not_or] at ht
    have hs := trajOrNew_sorted hm id.1
    split at h
    · cases h
    · rename_i hg
      simp only [Option.some.injEq] at h
      subst h
      refine ⟨wf_put hm (not_lt.1 ht.1) put_ne_nil (SMap.sorted_put hs)
        (put_nonneg (not_lt.1 ht.2) (trajOrNew_nonneg hm id.1)), ?_, ?_⟩
      · rw [← at?_trajOrNew]; exact hg
      · intro id'
        rw [at?_put]
        by_cases h1 : id.1 = id'.1
        · rw [if_pos h1, SMap.get?_put]
          by_cases h2 : id.2 = id'.2
          · rw [if_pos h2, if_pos (Prod.ext h1 h2)]
          · rw [if_neg h2, if_neg (by intro h; exact h2 (by rw [h])), h1, at?_trajOrNew]
        · rw [if_neg h1, if_neg (by intro h; exact h1 (by rw [h]))]

theorem assign_spec {m m' : Map D} (hm : WF m) {d : D} {id : Id} (h : assign m id d = some m') :
    WF m' ∧ (at? m id).isSome ∧ (∀ id', at? m' id' = if id = id' then some d else at? m id') := by
  simp only [assign] at h
  split at h
  · cases h
  · rename_i tr hg
    have hmem := SMap.mem_of_get? hg
    split at h
    · cases h
    · rename_i v hg2
      simp only [Option.some.injEq] at h
      subst h
      refine ⟨wf_put hm (hm.nonneg _ hmem) put_ne_nil (SMap.sorted_put (hm.dsorted _ hmem))
        (put_nonneg (hm.inonneg _ hmem _ (SMap.mem_of_get? hg2)) (hm.inonneg _ hmem)), ?_, ?_⟩
      · simp [at?, hg, hg2]
      · intro id'
        rw [at?_put]
        by_cases h1 : id.1 = id'.1
        · rw [if_pos h1, SMap.get?_put]
          by_cases h2 : id.2 = id'.2
          · rw [if_pos h2, if_pos (Prod.ext h1 h2)]
          · rw [if_neg h2, if_neg (by intro h; exact h2 (by rw [h]))]
            simp [at?, ← h1, hg]
        · rw [if_neg h1, if_neg (by intro h; exact h1 (by rw [h]))]

theorem trim_spec {m m' : Map D} (hm : WF m) {id : Id} (h : trim m id = some m') :
    WF m' ∧ (at? m id).isSome ∧ (∀ id', at? m' id' = if id = id' then none else at? m id') := by
  simp only [trim] at h
  split at h
  · cases h
  · rename_i tr hg
    have hmem := SMap.mem_of_get? hg
    split at h
    · cases h
    · rename_i v hg2
      have key : ∀ id', (if id.1 = id'.1 then SMap.get? id'.2 (SMap.erase id.2 tr.data) else at? m id') =
          if id = id' then none else at? m id' := by
        intro id'
        by_cases h1 : id.1 = id'.1
        · rw [if_pos h1, SMap.get?_erase]
          by_cases h2 : id.2 = id'.2
          · rw [if_pos h2, if_pos (Prod.ext h1 h2)]
          · rw [if_neg h2, if_neg (by intro h; exact h2 (by rw [h]))]
            simp [at?, ← h1, hg]
        · rw [if_neg h1, if_neg (by intro h; exact h1 (by rw [h]))]
      split at h
      · rename_i he
        simp only [Option.some.injEq] at h
        subst h
        refine ⟨wf_erase hm, by simp [at?, hg, hg2], ?_⟩
        intro id'
        rw [← key id', at?_erase]
        rw [List.isEmpty_iff] at he
        rw [he]; rfl
      · rename_i he
        simp only [Option.some.injEq] at h
        subst h
        refine ⟨wf_put hm (hm.nonneg _ hmem) (by simpa [List.isEmpty_iff] using he)
          (SMap.sorted_erase (hm.dsorted _ hmem)) (fun x hx => hm.inonneg _ hmem x (SMap.mem_erase.1 hx).1), by simp [at?, hg, hg2], ?_⟩
        intro id'
        rw [← key id', at?_put]

theorem wf_nil : WF ([] : Map D) := ⟨SMap.sorted_nil, by simp, by simp, by simp, by simp⟩

theorem step_spec {m m' : Map D} (hm : WF m) {o : Op D} {e : Ev D} (h : step m o = some (m', e)) :
    WF m' ∧ ∀ id, at? m' id = e.effect id (at? m id) := by
  cases o with
  | append t d =>
    simp only [step, Option.map_eq_some_iff, Prod.mk.injEq] at h
    obtain ⟨⟨m1, id1⟩, h1, rfl, rfl⟩ := h
    obtain ⟨w, -, -, q⟩ := append_spec hm h1
    exact ⟨w, q⟩
  | insert id d =>
    simp only [step, Option.map_eq_some_iff, Prod.mk.injEq] at h
    obtain ⟨m1, h1, rfl, rfl⟩ := h
    obtain ⟨w, -, q⟩ := insert_spec hm h1
    exact ⟨w, q⟩
  | assign id d =>
    simp only [step, Option.map_eq_some_iff, Prod.mk.injEq] at h
    obtain ⟨m1, h1, rfl, rfl⟩ := h
    obtain ⟨w, -, q⟩ := assign_spec hm h1
    exact ⟨w, q⟩
  | trim id =>
    simp only [step, Option.map_eq_some_iff, Prod.mk.injEq] at h
    obtain ⟨m1, h1, rfl, rfl⟩ := h
    obtain ⟨w, -, q⟩ := trim_spec hm h1
    exact ⟨w, q⟩

theorem run_spec {ops : List (Op D)} {m : Map D} {h : List (Ev D)} (hr : Run ops m h) :
    WF m ∧ ∀ id, at? m id = current h id := by
  induction hr with
  | nil => exact ⟨wf_nil, fun id => rfl⟩
  | snoc _ hs ih =>
    obtain ⟨w, q⟩ := step_spec ih.1 hs
    refine ⟨w, fun id => ?_⟩
    rw [q, current_snoc, ih.2]

theorem stored_of_current {h : List (Ev D)} {id : Id} {d : D} (hc : current h id = some d) : Ev.stored id d ∈ h := by
  induction h using List.reverseRecOn with
  | nil => simp [current] at hc
  | append_singleton h e ih =>
    rw [current_snoc] at hc
    cases e with
    | stored id' d' =>
      simp only [Ev.effect] at hc
      split at hc
      · rename_i he
        simp only [Option.some.injEq] at hc
        subst he; subst hc; simp
      · exact List.mem_append_left _ (ih hc)
    | trimmed id' =>
      simp only [Ev.effect] at hc
      split at hc
      · cases hc
      · exact List.mem_append_left _ (ih hc)

section LowerBound

variable {T : Type} [LinearOrder T] (time : D → T)

theorem lowerBoundPos_spec (data : List (Int × D)) (k : Int) :
    lowerBoundPos data k ≤ data.length ∧
    (∀ i e, i < lowerBoundPos data k → data[i]? = some e → e.1 < k) ∧
    (∀ e, data[lowerBoundPos data k]? = some e → k ≤ e.1) := by
  induction data with
  | nil => simp [lowerBoundPos]
  | cons x data ih =>
    by_cases hx : x.1 < k
    · have : lowerBoundPos (x :: data) k = lowerBoundPos data k + 1 := by simp [lowerBoundPos, hx]
      rw [this]
      refine ⟨by simpa using ih.1, ?_, ?_⟩
      · intro i e hi he
        cases i with
        | zero => simp only [List.getElem?_cons_zero, Option.some.injEq] at he; rw [← he]; exact hx
        | succ i => exact ih.2.1 i e (by omega) (by simpa using he)
      · intro e he
        exact ih.2.2 e (by simpa using he)
    · have : lowerBoundPos (x :: data) k = 0 := by simp [lowerBoundPos, hx]
      rw [this]
      refine ⟨by simp, by omega, ?_⟩
      intro e he
      simp only [List.getElem?_cons_zero, Option.some.injEq] at he
      rw [← he]; exact not_lt.1 hx

theorem sorted_get {data : List (Int × D)} (hs : SMap.Sorted data) {i j : Nat} {a b : Int × D}
    (ha : data[i]? = some a) (hb : data[j]? = some b) (h : i < j) : a.1 < b.1 := by
  obtain ⟨hi, rfl⟩ := List.getElem?_eq_some_iff.1 ha
  obtain ⟨hj, rfl⟩ := List.getElem?_eq_some_iff.1 hb
  exact List.pairwise_iff_getElem.1 hs i j hi hj h

theorem middlePos_spec {data : List (Int × D)} (hs : SMap.Sorted data) {left right : Nat} (h1 : left < right)
    (h2 : right < data.length) : ∃ p, middlePos data left right = some p ∧ left ≤ p ∧ p < right := by
  have hl : left < data.length := by omega
  have el : data[left]? = some data[left] := List.getElem?_eq_getElem hl
  have er : data[right]? = some data[right] := List.getElem?_eq_getElem h2
  have hlt := sorted_get hs el er h1
  set l := data[left] with hldef
  set r := data[right] with hrdef
  have hm1 : l.1 ≤ l.1 + (r.1 - l.1) / 2 := by omega
  have hm2 : l.1 + (r.1 - l.1) / 2 < r.1 := by omega
  set mid := l.1 + (r.1 - l.1) / 2 with hmid
  obtain ⟨q1, q2, q3⟩ := lowerBoundPos_spec data mid
  have hp0 : left ≤ lowerBoundPos data mid := by
    by_contra hc
    have hc : lowerBoundPos data mid < left := by omega
    have hb : lowerBoundPos data mid < data.length := by omega
    have e := List.getElem?_eq_getElem hb
    have := q3 _ e
    have := sorted_get hs e el hc
    omega
  have hp1 : lowerBoundPos data mid ≤ right := by
    by_contra hc
    have := q2 right r (by omega) er
    omega
  have hb : lowerBoundPos data mid < data.length := by omega
  have e := List.getElem?_eq_getElem hb
  have hge := q3 _ e
  simp only [middlePos, el, er, Option.bind_eq_bind, Option.bind_some, ← hmid, e]
  by_cases hgt : data[lowerBoundPos data mid].1 > mid
  · have hne : lowerBoundPos data mid ≠ left := by
      intro hc
      have : data[lowerBoundPos data mid] = l := by
        simp only [hldef, hc]
      rw [this] at hgt; omega
    rw [if_pos hgt, if_neg hne]
    exact ⟨_, rfl, by omega, by omega⟩
  · rw [if_neg hgt]
    refine ⟨_, rfl, hp0, ?_⟩
    rcases Nat.lt_or_eq_of_le hp1 with h | h
    · exact h
    · exfalso
      have : data[lowerBoundPos data mid] = r := by
        simp only [hrdef, h]
      rw [this] at hgt; omega

theorem lowerBoundLoop_spec {data : List (Int × D)} (hs : SMap.Sorted data)
    (ht : ∀ (i j : Nat) (a b : Int × D), data[i]? = some a → data[j]? = some b → i ≤ j → time a.2 ≤ time b.2) (tm : T) :
    ∀ fuel left right, right - left ≤ fuel → left ≤ right → right < data.length →
      (∀ i a, i < left → data[i]? = some a → time a.2 < tm) →
      (∀ a, data[right]? = some a → tm ≤ time a.2) →
      ∃ p, lowerBoundLoop time data tm fuel left right = some p ∧ p < data.length ∧
        (∀ i a, i < p → data[i]? = some a → time a.2 < tm) ∧ (∀ a, data[p]? = some a → tm ≤ time a.2) := by
  intro fuel
  induction fuel with
  | zero =>
    intro left right hf hle hr h1 h2
    have : left = right := by omega
    subst this
    exact ⟨left, by simp [lowerBoundLoop], hr, h1, h2⟩
  | succ fuel ih =>
    intro left right hf hle hr h1 h2
    by_cases heq : left = right
    · subst heq
      exact ⟨left, by simp [lowerBoundLoop], hr, h1, h2⟩
    · obtain ⟨p, hp, hp1, hp2⟩ := middlePos_spec hs (left := left) (right := right) (by omega) hr
      have hb : p < data.length := by omega
      have e := List.getElem?_eq_getElem hb
      simp only [lowerBoundLoop, if_neg heq, hp, e]
      by_cases hc : time data[p].2 < tm
      · rw [if_pos hc]
        refine ih _ _ (by omega) (by omega) hr ?_ h2
        intro i a hi ha
        exact lt_of_le_of_lt (ht i p a _ ha e (by omega)) hc
      · rw [if_neg hc]
        refine ih _ _ (by omega) (by omega) hb h1 ?_
        intro a ha
        rw [e] at ha
        simp only [Option.some.injEq] at ha
        rw [← ha]; exact not_lt.1 hc

end LowerBound

end Verif.MapById
