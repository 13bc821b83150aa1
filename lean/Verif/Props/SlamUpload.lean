import Verif.SlamUpload
import Verif.Props.ActiveSubmaps
import Verif.Props.SubmapController
import Verif.Props.TrajectoryStates

/-!
# C54: submaps are replicated on another server
-/

namespace Verif.SlamUpload

open MapById ActiveSubmaps
open Controller (Kind Msg Obj)

variable {R G C : Type}

/-! ### Specification -/

/-- The range data inserted into trajectory `t`. -/
def dataOf (es : List (Int × R)) (t : Int) : List R := (es.filter fun e => e.1 = t).map (·.2)

/-- With range data number `k` (from 0) a submap becomes full. -/
def finishing (n k : Nat) : Bool := decide (n ∣ k + 1 ∧ 2 * n ≤ k + 1)

/-- Between the first and the last range data of trajectory `t`, no other trajectory finishes a submap. -/
def Undisturbed (n : Int → Nat) (es : List (Int × R)) (t : Int) : Prop :=
  ∀ a u r b, es = a ++ (u, r) :: b → u ≠ t → t ∈ a.map (·.1) → t ∈ b.map (·.1) →
    finishing (n u) (dataOf a u).length = false

/-- What the messages say about a submap `x`, and what the receiver shows: finished submaps with everything, others without
grids; the number of range data of an unfinished submap is only kept for the first message. -/
def shown (view : Submap R → C) (x : Submap R) : Obj C :=
  ⟨if x.finished then x.numRangeData else if x.numRangeData = 1 then 1 else 0, x.finished, view x⟩

/-- The encoding `enc` and decoding fit together: applying a message leads to the content `view` of the submap. -/
structure Faithful (k : Kind G C) (enc : Submap R → G) (view : Submap R → C) : Prop where
  total : ∀ c x, (k.apply c (enc x)).isSome
  first : ∀ x, k.apply k.fresh (enc x) = some (view x)
  later : ∀ x y, x.finished = false → k.apply (view x) (enc y) = some (view y)

/-- Two dimensions: the grid is sent if the submap is finished. -/
def enc2d (grid : List R → G) (x : Submap R) : Option (Option G) := if x.finished then some (some (grid x.data)) else none

/-- The replica of a two-dimensional submap. -/
def view2d (grid : List R → G) (x : Submap R) : Option G := if x.finished then some (grid x.data) else none

theorem faithful2d (grid : List R → G) : Faithful (Controller.kind2d G) (enc2d grid) (view2d grid) where
  total c x := by unfold enc2d; cases x.finished <;> rfl
  first x := by unfold enc2d view2d; cases x.finished <;> rfl
  later x y hx := by unfold enc2d view2d; rw [hx]; cases y.finished <;> rfl

/-- Three dimensions: both grids are sent if the submap is finished, the histogram always. -/
def enc3d {H : Type} (high low : List R → G) (hist : List R → H) (x : Submap R) : Option G × Option G × H :=
  if x.finished then (some (high x.data), some (low x.data), hist x.data) else (none, none, hist x.data)

/-- The replica of a three-dimensional submap. -/
def view3d {H : Type} (high low : List R → G) (hist : List R → H) (x : Submap R) : Option G × Option G × Option H :=
  if x.finished then (some (high x.data), some (low x.data), some (hist x.data)) else (none, none, some (hist x.data))

theorem faithful3d {H : Type} (high low : List R → G) (hist : List R → H) :
    Faithful (Controller.kind3d G H) (enc3d high low hist) (view3d high low hist) where
  total c x := rfl
  first x := by unfold enc3d view3d; cases x.finished <;> rfl
  later x y hx := by unfold enc3d view3d; rw [hx]; cases y.finished <;> rfl

/-! ### The receiver follows one trajectory -/

/-- The submaps of trajectory `t`, sent with the indices `o`, `o + 1`, …, are the objects `ps` of the receiver and look like
the submaps `f 0`, `f 1`, …. -/
structure Tracks (view : Submap R → C) (t : Int) (o : Nat) (f : Nat → Submap R) (ps : List Nat) (s : Controller.State C) :
    Prop where
  incr : ps.Pairwise (· < ·)
  bound : ∀ p ∈ ps, p < s.heap.length
  obj : ∀ i p, ps[i]? = some p → s.heap[p]? = some (shown view (f i))
  open_ : ∀ i p, ps[i]? = some p → (f i).finished = false → at? s.unfinished (t, ((o + i : Nat) : Int)) = some p
  new : ∀ i, ps.length ≤ i → at? s.unfinished (t, ((o + i : Nat) : Int)) = none
  dead : ∀ i p, ps[i]? = some p → (f i).finished = true → ∀ id, at? s.unfinished id ≠ some p

theorem Tracks.congr {view : Submap R → C} {t : Int} {o : Nat} {f g : Nat → Submap R} {ps : List Nat}
    {s : Controller.State C} (h : Tracks view t o f ps s) (hfg : ∀ i, i < ps.length → f i = g i) :
    Tracks view t o g ps s := by
  have hl : ∀ i p, ps[i]? = some p → f i = g i := fun i p hp => hfg i (List.getElem?_eq_some_iff.1 hp).1
  exact ⟨h.incr, h.bound, fun i p hp => by rw [← hl i p hp]; exact h.obj i p hp,
    fun i p hp hf => h.open_ i p hp (by rw [hl i p hp]; exact hf), h.new,
    fun i p hp hf => h.dead i p hp (by rw [hl i p hp]; exact hf)⟩

/-- A message about another trajectory changes nothing. -/
theorem Tracks.foreign {view : Submap R → C} {t : Int} {o : Nat} {f : Nat → Submap R} {ps : List Nat}
    {k : Kind G C} {s s' : Controller.State C} {m : Msg G} {r : Option Nat} (h : Tracks view t o f ps s)
    (hi : Controller.Inv s) (hu : Controller.update k s m = some (s', r)) (hm : m.id.1 ≠ t) :
    Tracks view t o f ps s' := by
  have e := Controller.update_effect hi hu
  have hid : ∀ j : Int, (t, j) ≠ m.id := fun j hj => hm (by rw [← hj])
  refine ⟨h.incr, fun p hp => lt_of_lt_of_le (h.bound p hp) e.grow, ?_, ?_, ?_, ?_⟩
  · intro i p hp
    rw [e.frame p (h.bound p (List.mem_of_getElem? hp)) ?_]
    · exact h.obj i p hp
    · intro hx
      cases hf : (f i).finished with
      | true => exact h.dead i p hp hf _ hx
      | false => exact hid _ (hi.inj _ _ _ (h.open_ i p hp hf) hx)
  · intro i p hp hf
    rw [(e.others _ (hid _)).1]
    exact h.open_ i p hp hf
  · intro i hl
    rw [(e.others _ (hid _)).1]
    exact h.new i hl
  · intro i p hp hf id hx
    rcases e.subset id p hx with hy | hy
    · exact h.dead i p hp hf id hy
    · have := h.bound p (List.mem_of_getElem? hp)
      omega

theorem Tracks.foreign_run {view : Submap R → C} {t : Int} {o : Nat} {f : Nat → Submap R} {ps : List Nat}
    {k : Kind G C} {ms : List (Msg G)} : ∀ {s s' : Controller.State C} {rs : List (Option Nat)}, Tracks view t o f ps s →
    Controller.Inv s → Controller.run k s ms = some (s', rs) → (∀ m ∈ ms, m.id.1 ≠ t) → Tracks view t o f ps s' := by
  induction ms with
  | nil =>
    intro s s' rs h hi hr hm
    simp only [Controller.run, Option.some.injEq, Prod.mk.injEq] at hr
    exact hr.1 ▸ h
  | cons m ms ih =>
    intro s s' rs h hi hr hm
    simp only [Controller.run, Option.bind_eq_bind, Option.bind_eq_some_iff, Option.some.injEq, Prod.mk.injEq] at hr
    obtain ⟨⟨s1, r⟩, h1, ⟨s2, rs2⟩, h2, rfl, -⟩ := hr
    exact ih (h.foreign hi h1 (hm m (List.mem_cons_self ..))) (Controller.update_effect hi h1).inv h2
      (fun m' hm' => hm m' (List.mem_cons_of_mem _ hm'))

theorem foreign_ids {k : Kind G C} {t : Int} {ms : List (Msg G)} : ∀ {s s' : Controller.State C} {rs : List (Option Nat)},
    (∀ j, at? s.unfinished (t, j) = none) → Controller.Inv s → Controller.run k s ms = some (s', rs) →
    (∀ m ∈ ms, m.id.1 ≠ t) → ∀ j, at? s'.unfinished (t, j) = none := by
  induction ms with
  | nil =>
    intro s s' rs h hi hr hm
    simp only [Controller.run, Option.some.injEq, Prod.mk.injEq] at hr
    exact hr.1 ▸ h
  | cons m ms ih =>
    intro s s' rs h hi hr hm
    simp only [Controller.run, Option.bind_eq_bind, Option.bind_eq_some_iff, Option.some.injEq, Prod.mk.injEq] at hr
    obtain ⟨⟨s1, r⟩, h1, ⟨s2, rs2⟩, h2, rfl, -⟩ := hr
    have e := Controller.update_effect hi h1
    refine ih (fun j => ?_) e.inv h2 (fun m' hm' => hm m' (List.mem_cons_of_mem _ hm'))
    rw [(e.others (t, j) (fun hj => hm m (List.mem_cons_self ..) (by rw [← hj]))).1]
    exact h j

/-- A further message about a submap which is not finished. -/
theorem Tracks.update {view : Submap R → C} {enc : Submap R → G} {k : Kind G C} (hk : Faithful k enc view) {t : Int}
    {o : Nat} {f : Nat → Submap R} {ps : List Nat} {s : Controller.State C} (h : Tracks view t o f ps s)
    (hi : Controller.Inv s) {i p : Nat} (hp : ps[i]? = some p) (hf : (f i).finished = false) {x : Submap R}
    (hx : x.numRangeData ≠ 1) :
    ∃ s', Controller.update k s (toMsg enc t (o + i) x) = some (s', some p) ∧ Controller.Inv s' ∧
      Tracks view t o (fun j => if j = i then x else f j) ps s' := by
  have ha := h.open_ i p hp hf
  have ho := h.obj i p hp
  have hpl := h.bound p (List.mem_of_getElem? hp)
  have hsome : ∃ s' r, Controller.update k s (toMsg enc t (o + i) x) = some (s', r) := by
    cases hu : Controller.update k s (toMsg enc t (o + i) x) with
    | some q => exact ⟨q.1, q.2, rfl⟩
    | none =>
      rw [Controller.update_none_iff_inv hi] at hu
      have hc : Controller.current s (toMsg enc t (o + i) x).id = some (shown view (f i)) := by
        simp only [Controller.current, toMsg, ha, Option.bind_some, ho]
      rw [hc] at hu
      simp only [toMsg, reduceCtorEq, false_or, shown, Bool.true_eq_false] at hu
      rw [hk.later _ _ hf] at hu
      cases hu
  obtain ⟨s', r, hu⟩ := hsome
  have e := Controller.update_effect hi hu
  have hr := e.same p ha
  subst hr
  have hview : (shown view (f i)).content = view (f i) := rfl
  have hopen : x.finished = false → s' = ⟨s.unfinished, s.heap.set p ⟨0, false, view x⟩⟩ := by
    intro hfin
    have hu' := hu
    simp only [Controller.update, toMsg, ha, ho, Option.bind_eq_bind, Option.bind_some, if_true, hview, hk.later _ _ hf,
      hfin, Bool.false_eq_true, if_false, Option.some.injEq, Prod.mk.injEq] at hu'
    exact hu'.1.symm
  have hclose : x.finished = true → ∃ u, trim s.unfinished (t, ((o + i : Nat) : Int)) = some u ∧
      s' = ⟨u, s.heap.set p ⟨x.numRangeData, true, view x⟩⟩ := by
    intro hfin
    have hu' := hu
    simp only [Controller.update, toMsg, ha, ho, Option.bind_eq_bind, Option.bind_some, if_true, hview, hk.later _ _ hf,
      hfin, Option.bind_eq_some_iff, Option.some.injEq, Prod.mk.injEq] at hu'
    obtain ⟨u, h1, h2, -⟩ := hu'
    exact ⟨u, h1, h2.symm⟩
  have hinj : ∀ j, ps[j]? = some p → j = i := by
    intro j hj
    obtain ⟨h1, h1'⟩ := List.getElem?_eq_some_iff.1 hj
    obtain ⟨h2, h2'⟩ := List.getElem?_eq_some_iff.1 hp
    exact (List.Nodup.getElem_inj_iff (h.incr.imp (fun h => Nat.ne_of_lt h))).1 (h1'.trans h2'.symm)
  refine ⟨s', hu, e.inv, h.incr, fun q hq => lt_of_lt_of_le (h.bound q hq) e.grow, ?_, ?_, ?_, ?_⟩
  · intro j q hq
    by_cases hji : j = i
    · subst hji
      have : q = p := by rw [hp] at hq; injection hq with hq; exact hq.symm
      subst this
      simp only [if_true]
      cases hfin : x.finished with
      | true =>
        obtain ⟨u, -, rfl⟩ := hclose hfin
        simp [shown, hfin, hpl]
      | false =>
        rw [hopen hfin]
        simp [shown, hfin, hpl, hx]
    · simp only [if_neg hji]
      rw [e.frame q (h.bound q (List.mem_of_getElem? hq)) ?_]
      · exact h.obj j q hq
      · intro hx'
        rw [show (toMsg enc t (o + i) x).id = (t, ((o + i : Nat) : Int)) from rfl, ha] at hx'
        injection hx' with hx'
        subst hx'
        exact hji (hinj j hq)
  · intro j q hq hfj
    by_cases hji : j = i
    · subst hji
      have : q = p := by rw [hp] at hq; injection hq with hq; exact hq.symm
      subst this
      simp only [if_true] at hfj
      rw [hopen hfj]
      exact ha
    · simp only [if_neg hji] at hfj
      rw [(e.others _ ?_).1]
      · exact h.open_ j q hq hfj
      · intro hx'
        simp only [toMsg, Prod.mk.injEq] at hx'
        omega
  · intro j hj
    have hji : j ≠ i := by
      have := (List.getElem?_eq_some_iff.1 hp).1
      omega
    rw [(e.others _ ?_).1]
    · exact h.new j hj
    · intro hx'
      simp only [toMsg, Prod.mk.injEq] at hx'
      omega
  · intro j q hq hfj id hid
    by_cases hji : j = i
    · subst hji
      have : q = p := by rw [hp] at hq; injection hq with hq; exact hq.symm
      subst this
      simp only [if_true] at hfj
      obtain ⟨u, htrim, rfl⟩ := hclose hfj
      have ht := (trim_spec hi.wf htrim).2.2 id
      simp only at hid
      rw [ht] at hid
      split at hid
      · cases hid
      · rename_i hne
        exact hne (hi.inj _ _ _ ha hid)
    · simp only [if_neg hji] at hfj
      rcases e.subset id q hid with hy | hy
      · exact h.dead j q hq hfj id hy
      · have := h.bound q (List.mem_of_getElem? hq)
        omega

/-- The first message about a submap. -/
theorem Tracks.create {view : Submap R → C} {enc : Submap R → G} {k : Kind G C} (hk : Faithful k enc view) {t : Int}
    (ht : 0 ≤ t) {o : Nat} {f : Nat → Submap R} {ps : List Nat} {s : Controller.State C} (h : Tracks view t o f ps s)
    (hi : Controller.Inv s) {x : Submap R} (hx : x.numRangeData = 1) (hf : x.finished = false) :
    ∃ s', Controller.update k s (toMsg enc t (o + ps.length) x) = some (s', some s.heap.length) ∧ Controller.Inv s' ∧
      Tracks view t o (fun j => if j = ps.length then x else f j) (ps ++ [s.heap.length]) s' := by
  have ha := h.new ps.length (le_refl _)
  have hsome : ∃ s' r, Controller.update k s (toMsg enc t (o + ps.length) x) = some (s', r) := by
    cases hu : Controller.update k s (toMsg enc t (o + ps.length) x) with
    | some q => exact ⟨q.1, q.2, rfl⟩
    | none =>
      rw [Controller.update_none_iff_inv hi] at hu
      have hc : Controller.current s (toMsg enc t (o + ps.length) x).id = none := by
        simp only [Controller.current, toMsg, ha, Option.bind_none]
      rw [hc] at hu
      simp only [toMsg, hk.first] at hu
      obtain ⟨-, hu | hu | hu⟩ := hu
      · cases hu
      · omega
      · omega
  obtain ⟨s', r, hu⟩ := hsome
  have e := Controller.update_effect hi hu
  have hu' := hu
  simp only [Controller.update, toMsg, ha, hx, hf, Nat.cast_one, and_self, if_true, hk.first, Option.bind_eq_bind,
    Option.bind_some, Option.bind_eq_some_iff, Option.some.injEq, Prod.mk.injEq] at hu'
  obtain ⟨u, hins, rfl, rfl⟩ := hu'
  have hat := (insert_spec hi.wf hins).2.2
  refine ⟨_, hu, e.inv, ?_, ?_, ?_, ?_, ?_, ?_⟩
  · rw [List.pairwise_append]
    refine ⟨h.incr, List.pairwise_singleton _ _, fun a ha b hb => ?_⟩
    rw [List.mem_singleton] at hb
    subst hb
    exact h.bound a ha
  · intro q hq
    rw [List.mem_append, List.mem_singleton] at hq
    simp only [List.length_append, List.length_singleton]
    rcases hq with hq | hq
    · have := h.bound q hq
      omega
    · omega
  · intro j q hq
    by_cases hj : j < ps.length
    · rw [List.getElem?_append_left hj] at hq
      have hb := h.bound q (List.mem_of_getElem? hq)
      simp only [if_neg (Nat.ne_of_lt hj)]
      rw [List.getElem?_append_left hb]
      exact h.obj j q hq
    · rw [List.getElem?_append_right (by omega)] at hq
      have hj' : j - ps.length = 0 := by
        by_contra hne
        rw [List.getElem?_eq_none (by simp; omega)] at hq
        cases hq
      rw [hj'] at hq
      simp only [List.getElem?_cons_zero, Option.some.injEq] at hq
      subst hq
      have : j = ps.length := by omega
      simp [this, shown, hx, hf]
  · intro j q hq hfj
    simp only [hat]
    by_cases hj : j < ps.length
    · rw [List.getElem?_append_left hj] at hq
      simp only [if_neg (Nat.ne_of_lt hj)] at hfj
      rw [if_neg (by simp only [Prod.mk.injEq]; omega)]
      exact h.open_ j q hq hfj
    · rw [List.getElem?_append_right (by omega)] at hq
      have hj' : j - ps.length = 0 := by
        by_contra hne
        rw [List.getElem?_eq_none (by simp; omega)] at hq
        cases hq
      rw [hj'] at hq
      simp only [List.getElem?_cons_zero, Option.some.injEq] at hq
      subst hq
      have : j = ps.length := by omega
      simp [this]
  · intro j hj
    rw [List.length_append, List.length_singleton] at hj
    simp only [hat]
    rw [if_neg (by simp only [Prod.mk.injEq]; omega)]
    exact h.new j (by omega)
  · intro j q hq hfj id
    by_cases hj : j < ps.length
    · rw [List.getElem?_append_left hj] at hq
      simp only [if_neg (Nat.ne_of_lt hj)] at hfj
      have hb := h.bound q (List.mem_of_getElem? hq)
      simp only [hat]
      split
      · intro hx'
        injection hx' with hx'
        omega
      · exact h.dead j q hq hfj id
    · rw [List.getElem?_append_right (by omega)] at hq
      have hj' : j - ps.length = 0 := by
        by_contra hne
        rw [List.getElem?_eq_none (by simp; omega)] at hq
        cases hq
      have : j = ps.length := by omega
      simp only [this, if_true, hf, Bool.false_eq_true] at hfj

/-! ### One more range data -/

theorem spec_num (n : Nat) (rs : List R) (i : Nat) :
    (specSubmap n rs i).numRangeData = min (2 * n) (rs.length - i * n) := by
  simp [specSubmap]

theorem spec_finished (n : Nat) (rs : List R) (i : Nat) :
    (specSubmap n rs i).finished = decide (min (2 * n) (rs.length - i * n) = 2 * n) := by
  simp [specSubmap]

theorem spec_old {n : Nat} {rs : List R} {r : R} {i : Nat} (h : (i + 2) * n ≤ rs.length) :
    specSubmap n (rs ++ [r]) i = specSubmap n rs i := by
  have e : (i + 2) * n = i * n + 2 * n := by ring
  have : (rs ++ [r]).drop (i * n) = rs.drop (i * n) ++ [r] := List.drop_append_of_le_length (by omega)
  unfold specSubmap
  rw [this, List.take_append_of_le_length (by rw [List.length_drop]; omega)]

theorem count_eq {n q m : Nat} (hm : m < n) : specCount n (q * n + m) = q + (if m = 0 then 0 else 1) := by
  unfold specCount
  split
  · rename_i h0
    subst h0
    rw [show q * n + 0 + n - 1 = (n - 1) + n * q by rw [Nat.mul_comm]; omega, Nat.add_mul_div_left _ _ (by omega),
      Nat.div_eq_of_lt (by omega)]
    omega
  · rw [show q * n + m + n - 1 = (m - 1) + n * (q + 1) by rw [Nat.mul_add, Nat.mul_comm]; omega,
      Nat.add_mul_div_left _ _ (by omega), Nat.div_eq_of_lt (by omega)]
    omega

theorem count_succ {n q m : Nat} (hm : m < n) : specCount n (q * n + m + 1) = q + 1 := by
  unfold specCount
  rw [show q * n + m + 1 + n - 1 = m + n * (q + 1) by rw [Nat.mul_add, Nat.mul_comm]; omega,
    Nat.add_mul_div_left _ _ (by omega), Nat.div_eq_of_lt hm]
  omega

/-- The indices of the active submaps. -/
theorem active_eq {n q m : Nat} (hm : m < n) {rs : List R} (hl : rs.length = q * n + m + 1) :
    (specState n rs).submaps =
      (if q = 0 then [] else [specSubmap n rs (q - 1)]) ++ [specSubmap n rs q] := by
  simp only [specState, hl, count_succ hm]
  cases q with
  | zero => simp
  | succ q => simp [List.range_succ]

/-- The message about the newest submap. -/
theorem Tracks.back {view : Submap R → C} {enc : Submap R → G} {k : Kind G C} (hk : Faithful k enc view) {t : Int}
    (ht : 0 ≤ t) {o : Nat} {f : Nat → Submap R} {ps : List Nat} {s : Controller.State C} (h : Tracks view t o f ps s)
    (hi : Controller.Inv s) {q : Nat} {x : Submap R}
    (hc : ps.length = q ∧ x.numRangeData = 1 ∧ x.finished = false ∨
      ps.length = q + 1 ∧ x.numRangeData ≠ 1 ∧ (f q).finished = false) :
    ∃ s' ps' p, Controller.update k s (toMsg enc t (o + q) x) = some (s', some p) ∧ ps'[q]? = some p ∧
      Controller.Inv s' ∧ ps'.length = q + 1 ∧ ps <+: ps' ∧ Tracks view t o (fun j => if j = q then x else f j) ps' s' := by
  rcases hc with ⟨hl, h1, h2⟩ | ⟨hl, h1, h2⟩
  · obtain ⟨s', hu, hi', ht'⟩ := h.create hk ht hi h1 h2
    rw [hl] at hu ht'
    refine ⟨s', _, _, hu, ?_, hi', ?_, List.prefix_append _ _, ht'⟩
    · rw [List.getElem?_append_right (by omega), hl]
      simp
    · simp [hl]
  · obtain ⟨s', hu, hi', ht'⟩ := h.update hk hi (List.getElem?_eq_getElem (by omega : q < ps.length)) h2 h1
    exact ⟨s', ps, _, hu, List.getElem?_eq_getElem (by omega), hi', hl, List.prefix_refl _, ht'⟩

/-- The messages made for one more range data, and what they do to the receiver. -/
theorem Tracks.step {view : Submap R → C} {enc : Submap R → G} {k : Kind G C} (hk : Faithful k enc view) {t : Int}
    (ht : 0 ≤ t) {o n : Nat} (hn : 0 < n) {rs : List R} {r : R} {ps : List Nat} {s : Controller.State C}
    (h : Tracks view t o (specSubmap n rs) ps s) (hl : ps.length = specCount n rs.length) (hi : Controller.Inv s) :
    ∃ s' ps', Controller.run k s (toMsgs enc t (o + (rs.length / n - 1)) (specState n (rs ++ [r])).submaps) =
        some (s', (ps'.drop (rs.length / n - 1)).map some) ∧ Controller.Inv s' ∧
      ps'.length = rs.length / n + 1 ∧ ps <+: ps' ∧ Tracks view t o (specSubmap n (rs ++ [r])) ps' s' := by
  obtain ⟨q, m, hm, hk1⟩ : ∃ q m, m < n ∧ rs.length = q * n + m :=
    ⟨rs.length / n, rs.length % n, Nat.mod_lt _ hn, by rw [Nat.mul_comm]; exact (Nat.div_add_mod _ _).symm⟩
  have hq : rs.length / n = q := by
    rw [hk1, Nat.mul_comm, Nat.mul_add_div hn, Nat.div_eq_of_lt hm, Nat.add_zero]
  have hl' : (rs ++ [r]).length = q * n + m + 1 := by rw [List.length_append, List.length_singleton, hk1]
  rw [hq, active_eq hm hl']
  rw [hk1, count_eq hm] at hl
  -- the newest submap, whatever happened to the others
  have hback : ∀ f : Nat → Submap R, f q = specSubmap n rs q →
      ps.length = q ∧ (specSubmap n (rs ++ [r]) q).numRangeData = 1 ∧ (specSubmap n (rs ++ [r]) q).finished = false ∨
      ps.length = q + 1 ∧ (specSubmap n (rs ++ [r]) q).numRangeData ≠ 1 ∧ (f q).finished = false := by
    intro f hf
    rw [spec_num, spec_finished, hl', hf, spec_finished, hk1]
    by_cases h0 : m = 0
    · left
      rw [if_pos h0] at hl
      refine ⟨hl, by omega, ?_⟩
      simp only [decide_eq_false_iff_not]
      omega
    · right
      rw [if_neg h0] at hl
      refine ⟨hl, by omega, ?_⟩
      simp only [decide_eq_false_iff_not]
      omega
  cases q with
  | zero =>
    obtain ⟨s', ps', p, hu, hp, hi', hlen, hpre, ht'⟩ := h.back hk ht hi (hback _ rfl)
    refine ⟨s', ps', ?_, hi', hlen, hpre, ht'.congr ?_⟩
    · obtain ⟨a, rfl⟩ := List.length_eq_one_iff.1 hlen
      simp only [List.getElem?_cons_zero, Option.some.injEq] at hp
      subst hp
      simp only [if_true, List.nil_append, toMsgs, Nat.zero_sub, Controller.run, hu, Option.bind_eq_bind, Option.bind_some,
        List.drop_zero, List.map_cons, List.map_nil]
    · intro i hi
      have : i = 0 := by omega
      simp [this]
  | succ q =>
    have e1 : (q + 1) * n = q * n + n := by ring
    have hql : q < ps.length := by rw [hl]; omega
    have hfr : (specSubmap n rs q).finished = false := by
      rw [spec_finished, hk1]
      simp only [decide_eq_false_iff_not]
      omega
    have hxr : (specSubmap n (rs ++ [r]) q).numRangeData ≠ 1 := by
      rw [spec_num, hl']
      omega
    obtain ⟨s1, hu1, hi1, ht1⟩ := h.update hk hi (List.getElem?_eq_getElem hql) hfr hxr
    obtain ⟨s', ps', p, hu, hp, hi', hlen, hpre, ht'⟩ := ht1.back hk ht hi1
      (hback (fun j => if j = q then specSubmap n (rs ++ [r]) q else specSubmap n rs j) (by simp))
    refine ⟨s', ps', ?_, hi', hlen, hpre, ht'.congr ?_⟩
    · have hpq : ps'[q]? = some ps[q] := by
        rw [← List.getElem?_eq_getElem hql]
        obtain ⟨d, rfl⟩ := hpre
        rw [List.getElem?_append_left hql]
      have hd : ps'.drop q = [ps[q], p] := by
        apply List.ext_getElem?
        intro j
        rw [List.getElem?_drop]
        match j with
        | 0 => simpa using hpq
        | 1 => simpa using hp
        | j + 2 => rw [List.getElem?_eq_none (by omega), List.getElem?_eq_none (by simp)]
      simp only [Nat.add_eq_zero_iff, one_ne_zero, and_false, if_false, Nat.add_sub_cancel, List.cons_append,
        List.nil_append, toMsgs, Controller.run, hu1, Option.bind_eq_bind, Option.bind_some, hd, List.map_cons, List.map_nil]
      rw [show o + q + 1 = o + (q + 1) by omega, hu]
      rfl
    · intro i hi
      by_cases h1 : i = q + 1
      · simp [h1]
      · by_cases h2 : i = q
        · simp [h2]
        · simp only [if_neg h1, if_neg h2]
          refine (spec_old ?_).symm
          rw [hk1]
          calc (i + 2) * n ≤ (q + 1) * n := Nat.mul_le_mul_right _ (by omega)
            _ ≤ (q + 1) * n + m := by omega

/-! ### All trajectories -/

theorem finishing_eq {n q m : Nat} (hm : m < n) : finishing n (q * n + m) = decide (m + 1 = n ∧ 1 ≤ q) := by
  have hd : n ∣ q * n + m + 1 ↔ m + 1 = n := by
    rw [Nat.add_assoc, Nat.dvd_add_right (Nat.dvd_mul_left _ _)]
    constructor
    · intro h
      have := Nat.le_of_dvd (by omega) h
      omega
    · intro h
      rw [h]
  unfold finishing
  rw [decide_eq_decide, hd]
  constructor
  · rintro ⟨h1, h2⟩
    refine ⟨h1, ?_⟩
    by_contra h0
    have : q = 0 := by omega
    subst this
    omega
  · rintro ⟨h1, h2⟩
    refine ⟨h1, ?_⟩
    have : 1 * n ≤ q * n := Nat.mul_le_mul_right _ h2
    omega

theorem head_active {n : Nat} (hn : 0 < n) (rs : List R) (r : R) :
    ∃ x, (specState n (rs ++ [r])).submaps.head? = some x ∧ x = specSubmap n (rs ++ [r]) (rs.length / n - 1) ∧
      x.finished = finishing n rs.length := by
  obtain ⟨q, m, hm, hk1⟩ : ∃ q m, m < n ∧ rs.length = q * n + m :=
    ⟨rs.length / n, rs.length % n, Nat.mod_lt _ hn, by rw [Nat.mul_comm]; exact (Nat.div_add_mod _ _).symm⟩
  have hq : rs.length / n = q := by
    rw [hk1, Nat.mul_comm, Nat.mul_add_div hn, Nat.div_eq_of_lt hm, Nat.add_zero]
  have hl' : (rs ++ [r]).length = q * n + m + 1 := by rw [List.length_append, List.length_singleton, hk1]
  rw [active_eq hm hl', hq, hk1, finishing_eq hm]
  cases q with
  | zero =>
    refine ⟨_, rfl, rfl, ?_⟩
    rw [spec_finished, hl', decide_eq_decide]
    omega
  | succ q =>
    refine ⟨_, rfl, rfl, ?_⟩
    have e1 : (q + 1) * n = q * n + n := by ring
    rw [spec_finished, hl', decide_eq_decide, Nat.add_sub_cancel]
    omega

theorem send_eq {n : Int → Nat} {enc : Submap R → G} {s : Sender R} {t : Int} {r : R} (hn : 0 < n t) {rs : List R}
    (h : s.active t = specState (n t) rs) :
    send n enc s t r = some
      (⟨if finishing (n t) rs.length then s.starting + 1 else s.starting,
        fun u => if u = t then specState (n t) (rs ++ [r]) else s.active u⟩,
       toMsgs enc t s.starting (specState (n t) (rs ++ [r])).submaps) := by
  obtain ⟨x, h1, -, h2⟩ := head_active hn rs r
  simp only [send, h, step_spec (n t) hn rs r, Option.bind_eq_bind, Option.bind_some, h1, h2]

theorem mem_toMsgs {enc : Submap R → G} {t : Int} {l : List (Submap R)} : ∀ {o : Nat} {m : Msg G}, m ∈ toMsgs enc t o l →
    m.id.1 = t ∧ 0 ≤ m.id.2 ∧ m.rightKind = true ∧ ∃ x, m.payload = enc x := by
  induction l with
  | nil => intro o m hm; cases hm
  | cons x l ih =>
    intro o m hm
    rw [toMsgs, List.mem_cons] at hm
    rcases hm with rfl | hm
    · exact ⟨rfl, Int.natCast_nonneg _, rfl, x, rfl⟩
    · exact ih hm

theorem run_total {view : Submap R → C} {enc : Submap R → G} {k : Kind G C} (hk : Faithful k enc view) {t : Int}
    (ht : 0 ≤ t) {ms : List (Msg G)} : ∀ {s : Controller.State C}, Controller.Inv s →
    (∀ m ∈ ms, m.id.1 = t ∧ 0 ≤ m.id.2 ∧ m.rightKind = true ∧ ∃ x, m.payload = enc x) →
    ∃ s' rs, Controller.run k s ms = some (s', rs) ∧ s.heap.length ≤ s'.heap.length ∧
      ∀ p, some p ∈ rs → p < s'.heap.length := by
  induction ms with
  | nil => intro s hi hm; exact ⟨s, [], rfl, le_refl _, by simp⟩
  | cons m ms ih =>
    intro s hi hm
    obtain ⟨h1, h2, h3, x, h4⟩ := hm m (List.mem_cons_self ..)
    cases hu : Controller.update k s m with
    | none =>
      exfalso
      rw [Controller.update_none_iff_inv hi] at hu
      have htot := fun c => hk.total c x
      rw [← h4] at htot
      cases hc : Controller.current s m.id with
      | none =>
        rw [hc] at hu
        have := htot k.fresh
        obtain ⟨-, hu | hu | hu⟩ := hu
        · rw [hu] at this; cases this
        · omega
        · omega
      | some ob =>
        rw [hc] at hu
        have := htot ob.content
        rcases hu with hu | hu
        · rw [h3] at hu; cases hu
        · rw [hu] at this; cases this
    | some q =>
      obtain ⟨s1, r⟩ := q
      have e := Controller.update_effect hi hu
      obtain ⟨s', rs, g1, g2, g3⟩ := ih e.inv (fun m' hm' => hm m' (List.mem_cons_of_mem _ hm'))
      refine ⟨s', r :: rs, by simp [Controller.run, hu, g1], le_trans e.grow g2, ?_⟩
      intro p hp
      rw [List.mem_cons] at hp
      rcases hp with hp | hp
      · exact lt_of_lt_of_le (e.points p hp.symm) g2
      · exact g3 p hp

/-- The calls of `AddNode` expected for trajectory `t`, whose submaps are the objects `ps`: node number `k` belongs to the
newest submap and the one before. -/
def expectedCalls (t : Int) (n count : Nat) (ps : List Nat) : List Call :=
  (List.range count).map fun k => ⟨t, (ps.take (k / n + 1)).drop (k / n - 1), finishing n k⟩

/-- What has been reached after the events `a`, with `b` still to come. -/
structure Reached (n : Int → Nat) (view : Submap R → C) (es a b : List (Int × R)) (s : Sender R) (c : Receiver C) :
    Prop where
  active : ∀ u, s.active u = specState (n u) (dataOf a u)
  inv : Controller.Inv c.ctl
  unseen : ∀ t, t ∉ a.map (·.1) → (∀ j, at? c.ctl.unfinished (t, j) = none) ∧ c.calls.filter (fun x => x.traj = t) = []
  seen : ∀ t, Undisturbed n es t → t ∈ a.map (·.1) → ∃ o ps,
    (t ∈ b.map (·.1) → s.starting = o + ((dataOf a t).length / n t - 1)) ∧
    Tracks view t o (specSubmap (n t) (dataOf a t)) ps c.ctl ∧ ps.length = specCount (n t) (dataOf a t).length ∧
    c.calls.filter (fun x => x.traj = t) = expectedCalls t (n t) (dataOf a t).length ps

theorem dataOf_append (a : List (Int × R)) (u : Int) (r : R) (t : Int) :
    dataOf (a ++ [(u, r)]) t = if u = t then dataOf a t ++ [r] else dataOf a t := by
  simp only [dataOf, List.filter_append, List.map_append]
  by_cases h : u = t <;> simp [h]

theorem dataOf_nil_of_not_mem {a : List (Int × R)} {t : Int} (h : t ∉ a.map (·.1)) : dataOf a t = [] := by
  simp only [dataOf, List.map_eq_nil_iff, List.filter_eq_nil_iff, decide_eq_true_eq]
  intro e he ht
  exact h (List.mem_map.2 ⟨e, he, ht⟩)

theorem expectedCalls_extend {t : Int} {n count : Nat} (hn : 0 < n) {ps ps' : List Nat}
    (hl : ps.length = specCount n count) (hp : ps <+: ps') : expectedCalls t n count ps' = expectedCalls t n count ps := by
  obtain ⟨d, rfl⟩ := hp
  simp only [expectedCalls]
  apply List.map_congr_left
  intro k hk
  have hk := List.mem_range.1 hk
  have : k / n + 1 ≤ ps.length := by
    rw [hl]
    unfold specCount
    have h1 : (k + n) / n ≤ (count + n - 1) / n := Nat.div_le_div_right (by omega)
    rwa [Nat.add_div_right _ hn] at h1
  rw [List.take_append_of_le_length this]

theorem expectedCalls_succ (t : Int) (n count : Nat) (ps : List Nat) :
    expectedCalls t n (count + 1) ps =
      expectedCalls t n count ps ++ [⟨t, (ps.take (count / n + 1)).drop (count / n - 1), finishing n count⟩] := by
  simp [expectedCalls, List.range_succ]

theorem starting_step {n k : Nat} (hn : 0 < n) (o : Nat) :
    (if finishing n k then o + (k / n - 1) + 1 else o + (k / n - 1)) = o + ((k + 1) / n - 1) := by
  obtain ⟨q, m, hm, hk1⟩ : ∃ q m, m < n ∧ k = q * n + m :=
    ⟨k / n, k % n, Nat.mod_lt _ hn, by rw [Nat.mul_comm]; exact (Nat.div_add_mod _ _).symm⟩
  have hq : k / n = q := by
    rw [hk1, Nat.mul_comm, Nat.mul_add_div hn, Nat.div_eq_of_lt hm, Nat.add_zero]
  rw [hq, hk1, finishing_eq hm]
  by_cases h1 : m + 1 = n
  · have : (q * n + m + 1) / n = q + 1 := by
      rw [Nat.add_assoc, h1, Nat.add_div_right _ hn, Nat.mul_div_cancel _ hn]
    rw [this]
    by_cases h2 : 1 ≤ q
    · simp only [h1, h2, and_self, decide_true, if_true]
      omega
    · simp only [h2, and_false, decide_false, Bool.false_eq_true, if_false]
      omega
  · have : (q * n + m + 1) / n = q := by
      rw [Nat.add_assoc, Nat.mul_comm, Nat.mul_add_div hn, Nat.div_eq_of_lt (by omega), Nat.add_zero]
    rw [this]
    simp [h1]

theorem Reached.step {dim3 : Bool} {n : Int → Nat} (hn : ∀ t, 0 < n t) {view : Submap R → C} {enc : Submap R → G}
    {k : Kind G C} (hk : Faithful k enc view) {es a b : List (Int × R)} {t : Int} {r : R} {s : Sender R} {c : Receiver C}
    (he : es = a ++ (t, r) :: b) (ht : 0 ≤ t) (hd : dim3 = false ∨ Undisturbed n es t)
    (h : Reached n view es a ((t, r) :: b) s c) :
    ∃ s' ms c', send n enc s t r = some (s', ms) ∧ receive dim3 k c t ms = some c' ∧
      Reached n view es (a ++ [(t, r)]) b s' c' := by
  have hsend := send_eq (enc := enc) (r := r) (hn t) (h.active t)
  suffices hsuff : ∃ c', receive dim3 k c t (toMsgs enc t s.starting (specState (n t) (dataOf a t ++ [r])).submaps) = some c' ∧
      Reached n view es (a ++ [(t, r)]) b
        ⟨if finishing (n t) (dataOf a t).length then s.starting + 1 else s.starting,
          fun u => if u = t then specState (n t) (dataOf a t ++ [r]) else s.active u⟩ c' by
    obtain ⟨c', h1, h2⟩ := hsuff
    exact ⟨_, _, c', hsend, h1, h2⟩
  have hmem := fun m (hm : m ∈ toMsgs enc t s.starting (specState (n t) (dataOf a t ++ [r])).submaps) => mem_toMsgs hm
  obtain ⟨ctl, rs, hrun, hgrow, hpts⟩ := run_total hk ht h.inv hmem
  have hinv := Controller.run_inv h.inv hrun
  -- the list of messages is not empty
  obtain ⟨x, hx1, hx2, hx3⟩ := head_active (hn t) (dataOf a t) r
  have hfirst : ∃ m, (toMsgs enc t s.starting (specState (n t) (dataOf a t ++ [r])).submaps).head? = some m ∧
      m.rightKind = true := by
    cases hl : (specState (n t) (dataOf a t ++ [r])).submaps with
    | nil => rw [hl] at hx1; cases hx1
    | cons y l => exact ⟨_, rfl, rfl⟩
  obtain ⟨m0, hm0, hm0'⟩ := hfirst
  -- the trajectory itself, if it is undisturbed
  have hown : Undisturbed n es t → ∃ o ps, s.starting = o + ((dataOf a t).length / n t - 1) ∧
      rs = (ps.drop ((dataOf a t).length / n t - 1)).map some ∧ ps.length = (dataOf a t).length / n t + 1 ∧
      Tracks view t o (specSubmap (n t) (dataOf a t ++ [r])) ps ctl ∧
      c.calls.filter (fun x => x.traj = t) = expectedCalls t (n t) (dataOf a t).length ps := by
    intro hud
    have hex : ∃ o ps, s.starting = o + ((dataOf a t).length / n t - 1) ∧
        Tracks view t o (specSubmap (n t) (dataOf a t)) ps c.ctl ∧ ps.length = specCount (n t) (dataOf a t).length ∧
        c.calls.filter (fun x => x.traj = t) = expectedCalls t (n t) (dataOf a t).length ps := by
      by_cases hs : t ∈ a.map (·.1)
      · obtain ⟨o, ps, h1, h2, h3, h4⟩ := h.seen t hud hs
        exact ⟨o, ps, h1 (by simp), h2, h3, h4⟩
      · obtain ⟨h1, h2⟩ := h.unseen t hs
        rw [dataOf_nil_of_not_mem hs]
        refine ⟨s.starting, [], by simp, ?_, ?_, ?_⟩
        · exact ⟨List.Pairwise.nil, by simp, by simp, by simp, fun i _ => h1 _, by simp⟩
        · have := hn t
          simp [specCount, Nat.div_eq_of_lt (show n t - 1 < n t by omega)]
        · rw [h2]; rfl
    obtain ⟨o, ps, h1, h2, h3, h4⟩ := hex
    obtain ⟨ctl', ps', g1, -, g3, g4, g5⟩ := h2.step hk ht (hn t) (r := r) h3 h.inv
    rw [← h1, hrun] at g1
    simp only [Option.some.injEq, Prod.mk.injEq] at g1
    obtain ⟨rfl, rfl⟩ := g1
    exact ⟨o, ps', h1, rfl, g3, g5, by rw [h4, expectedCalls_extend (hn t) h3 g4]⟩
  have hnull : dim3 = false ∨ none ∉ rs := by
    rcases hd with hd | hd
    · exact Or.inl hd
    · obtain ⟨o, ps, -, rfl, -⟩ := hown hd
      exact Or.inr (by rw [List.mem_map]; rintro ⟨_, _, h⟩; cases h)
  -- what is received
  have hrecv : ∃ c', receive dim3 k c t (toMsgs enc t s.starting (specState (n t) (dataOf a t ++ [r])).submaps) = some c' ∧
      c'.ctl = ctl ∧ (∀ u, u ≠ t → c'.calls.filter (fun x => x.traj = u) = c.calls.filter (fun x => x.traj = u)) ∧
      ∀ p ps ob, rs.filterMap id = p :: ps → ctl.heap[p]? = some ob → c'.calls = c.calls ++ [⟨t, p :: ps, ob.finished⟩] := by
    simp only [receive, hm0, hm0', hrun, Option.bind_eq_bind, Option.bind_some, guard_true, Option.pure_def, hnull]
    cases hf : rs.filterMap id with
    | nil => exact ⟨_, rfl, rfl, fun u hu => rfl, by simp⟩
    | cons p ps =>
      have hp : p < ctl.heap.length := by
        apply hpts
        have : p ∈ rs.filterMap id := by rw [hf]; exact List.mem_cons_self ..
        simpa using this
      simp only [List.getElem?_eq_getElem hp, Option.bind_some]
      refine ⟨_, rfl, rfl, fun u hu => ?_, ?_⟩
      · simp [List.filter_append, hu.symm]
      · rintro p' ps' ob ⟨⟩ ho
        rw [List.getElem?_eq_getElem hp, Option.some.injEq] at ho
        rw [ho]
  obtain ⟨c', hc1, hc2, hc3, hc4⟩ := hrecv
  refine ⟨c', hc1, ?_, ?_, ?_, ?_⟩
  · intro u
    simp only [dataOf_append]
    by_cases hu : u = t
    · simp [hu]
    · simp only [if_neg hu, if_neg (Ne.symm hu)]
      exact h.active u
  · rw [hc2]; exact hinv
  · intro u hu
    simp only [List.map_append, List.map_cons, List.map_nil, List.mem_append, List.mem_singleton, not_or] at hu
    obtain ⟨h1, h2⟩ := h.unseen u hu.1
    rw [hc2, hc3 u hu.2]
    exact ⟨foreign_ids h1 h.inv hrun (fun m hm => by rw [(hmem m hm).1]; exact Ne.symm hu.2), h2⟩
  · intro u hud hu
    by_cases hut : u = t
    · subst hut
      obtain ⟨o, ps, h1, h2, h3, h4, h5⟩ := hown hud
      have hdat : dataOf (a ++ [(u, r)]) u = dataOf a u ++ [r] := by rw [dataOf_append, if_pos rfl]
      have hlen : (dataOf a u ++ [r]).length = (dataOf a u).length + 1 := by simp
      refine ⟨o, ps, fun _ => ?_, ?_, ?_, ?_⟩
      · rw [hdat, hlen]
        simp only [h1]
        exact starting_step (hn u) o
      · rw [hdat, hc2]; exact h4
      · rw [hdat, hlen, h3]
        have : 0 < n u := hn u
        unfold specCount
        rw [show (dataOf a u).length + 1 + n u - 1 = (dataOf a u).length + n u by omega, Nat.add_div_right _ (hn u)]
      · have hi : (dataOf a u).length / n u - 1 < ps.length := by rw [h3]; exact Nat.lt_succ_of_le (Nat.sub_le _ _)
        have hcall := hc4 ps[(dataOf a u).length / n u - 1] (ps.drop ((dataOf a u).length / n u - 1 + 1)) (shown view x)
          (by rw [h2, List.filterMap_map, ← List.drop_eq_getElem_cons hi]; simp)
          (by rw [hx2]; exact h4.obj _ _ (List.getElem?_eq_getElem hi))
        rw [hcall, hdat, hlen, expectedCalls_succ, List.filter_append, h5, ← List.drop_eq_getElem_cons hi,
          List.take_of_length_le h3.le]
        simp [shown, hx3]
    · have hua : u ∈ a.map (·.1) := by
        simp only [List.map_append, List.map_cons, List.map_nil, List.mem_append, List.mem_singleton] at hu
        exact hu.resolve_right hut
      obtain ⟨o, ps, h1, h2, h3, h4⟩ := h.seen u hud hua
      have hdat : dataOf (a ++ [(t, r)]) u = dataOf a u := by rw [dataOf_append, if_neg (Ne.symm hut)]
      refine ⟨o, ps, fun hb => ?_, ?_, ?_, ?_⟩
      · rw [hdat]
        have hnf := hud a t r b he (Ne.symm hut) hua hb
        simp only [hnf, Bool.false_eq_true, if_false]
        exact h1 (by simp [hb] )
      · rw [hdat, hc2]
        exact h2.foreign_run h.inv hrun (fun m hm => by rw [(hmem m hm).1]; exact Ne.symm hut)
      · rw [hdat]; exact h3
      · rw [hdat, hc3 u hut]; exact h4

theorem Reached.all {dim3 : Bool} {n : Int → Nat} (hn : ∀ t, 0 < n t) {view : Submap R → C} {enc : Submap R → G}
    {k : Kind G C} (hk : Faithful k enc view) {es : List (Int × R)} (hpos : ∀ e ∈ es, 0 ≤ e.1)
    (hd : dim3 = false ∨ ∀ t, Undisturbed n es t) {b : List (Int × R)} : ∀ {a : List (Int × R)} {s : Sender R}
    {c : Receiver C}, es = a ++ b → Reached n view es a b s c →
    ∃ s' c', pipeline dim3 n enc k s c b = some (s', c') ∧ Reached n view es es [] s' c' := by
  induction b with
  | nil =>
    intro a s c he h
    rw [List.append_nil] at he
    subst he
    exact ⟨s, c, rfl, h⟩
  | cons e b ih =>
    intro a s c he h
    obtain ⟨t, r⟩ := e
    obtain ⟨s1, ms, c1, h1, h2, h3⟩ := Reached.step hn hk he (hpos (t, r) (by rw [he]; simp))
      (hd.imp id (fun hd => hd t)) h
    obtain ⟨s', c', h4, h5⟩ := ih (by rw [he]; simp) h3
    exact ⟨s', c', by simp only [pipeline, h1, Option.bind_eq_bind, Option.bind_some, h2, h4], h5⟩

/-- **C54.** For any number of trajectories in any interleaving, everything that is sent is accepted without an abort (in
three dimensions only if all trajectories are undisturbed). An undisturbed trajectory is replicated exactly: its submaps
are the objects `ps`, in order; each of them is finished exactly if the submap of the sender is and then has its content;
and the nodes are added to exactly the same submaps, with the same announcements of finished submaps. -/
theorem replicated_partial {dim3 : Bool} {n : Int → Nat} (hn : ∀ t, 0 < n t) {view : Submap R → C} {enc : Submap R → G}
    {k : Kind G C} (hk : Faithful k enc view) {es : List (Int × R)} (hpos : ∀ e ∈ es, 0 ≤ e.1)
    (hd : dim3 = false ∨ ∀ t, Undisturbed n es t) :
    ∃ s c, pipeline dim3 n enc k {} {} es = some (s, c) ∧ ∀ t, Undisturbed n es t → ∃ ps : List Nat,
      ps.Pairwise (· < ·) ∧ ps.length = specCount (n t) (dataOf es t).length ∧
      (∀ i p, ps[i]? = some p → c.ctl.heap[p]? = some (shown view (specSubmap (n t) (dataOf es t) i))) ∧
      c.calls.filter (fun x => x.traj = t) = expectedCalls t (n t) (dataOf es t).length ps := by
  have hinit : Reached n view es [] es ({} : Sender R) ({} : Receiver C) := by
    refine ⟨fun u => ?_, Controller.inv_init, fun t _ => ⟨fun j => by simp [at?, SMap.get?], rfl⟩, fun t _ h => by cases h⟩
    have := hn u
    simp [dataOf, specState, specCount, init, Nat.div_eq_of_lt (show n u - 1 < n u by omega)]
  obtain ⟨s, c, h1, h2⟩ := Reached.all (dim3 := dim3) hn hk hpos hd (by simp) hinit
  refine ⟨s, c, h1, fun t hud => ?_⟩
  by_cases ht : t ∈ es.map (·.1)
  · obtain ⟨o, ps, -, g2, g3, g4⟩ := h2.seen t hud ht
    exact ⟨ps, g2.incr, g3, g2.obj, g4⟩
  · obtain ⟨-, g2⟩ := h2.unseen t ht
    rw [dataOf_nil_of_not_mem ht]
    have := hn t
    exact ⟨[], List.Pairwise.nil, by simp [specCount, Nat.div_eq_of_lt (show n t - 1 < n t by omega)], by simp,
      by rw [g2]; rfl⟩

/-- A single trajectory is undisturbed. -/
theorem single_undisturbed (n : Int → Nat) {es : List (Int × R)} {t : Int} (h : ∀ e ∈ es, e.1 = t) : Undisturbed n es t := by
  intro a u r b he hu
  exact absurd (h (u, r) (by rw [he]; simp)) hu

/-- One trajectory with submaps of four range data each, in two dimensions. -/
example : (pipeline false (fun _ => 2) (enc2d id) (Controller.kind2d (List Nat)) {} {}
    [(0, 10), (0, 11), (0, 12), (0, 13), (0, 14)]).map (fun x => (x.1.starting, x.2.ctl.heap, x.2.calls)) =
    some (1, [⟨4, true, some [10, 11, 12, 13]⟩, ⟨0, false, none⟩, ⟨1, false, none⟩],
      [⟨0, [0], false⟩, ⟨0, [0], false⟩, ⟨0, [0, 1], false⟩, ⟨0, [0, 1], true⟩, ⟨0, [1, 2], false⟩]) := by decide +kernel

/-- Two trajectories one after the other; neither disturbs the other. -/
example : ∃ s c, pipeline true (fun _ => 1) (enc3d id id List.length) (Controller.kind3d (List Nat) Nat) {} {}
    [(3, 10), (3, 11), (7, 12), (7, 13)] = some (s, c) ∧
    c.calls = [⟨3, [0], false⟩, ⟨3, [0, 1], true⟩, ⟨7, [2], false⟩, ⟨7, [2, 3], true⟩] ∧
    c.ctl.heap.map (·.finished) = [true, false, true, false] := by
  refine ⟨_, _, rfl, ?_, ?_⟩ <;> decide +kernel

/-! ### Several trajectories at the same time -/

/-- Trajectory 1 has two submaps under construction when trajectory 0 finishes one. -/
def interleaved : List (Int × Nat) := [(1, 20), (1, 21), (1, 22), (0, 10), (0, 11), (0, 12), (0, 13), (1, 23)]

/-- The index of the next submap is shared by all trajectories (map_builder_server.h, `starting_submap_index_`). With two
trajectories at the same time the receiver stores the content of one submap in another one (object 1 gets the four range
data of object 0, which is never finished) and the last node is added to one submap instead of two. -/
theorem shared_index_mixes_up : ∃ s c, pipeline false (fun _ => 2) (enc2d id) (Controller.kind2d (List Nat)) {} {} interleaved =
    some (s, c) ∧ specSubmap 2 (dataOf interleaved 1) 0 = ⟨[20, 21, 22, 23], 4, true⟩ ∧
      specSubmap 2 (dataOf interleaved 1) 1 = ⟨[22, 23], 2, false⟩ ∧
      c.ctl.heap[0]? = some ⟨0, false, none⟩ ∧ c.ctl.heap[1]? = some ⟨4, true, some [20, 21, 22, 23]⟩ ∧
    c.calls = [⟨1, [0], false⟩, ⟨1, [0], false⟩, ⟨1, [0, 1], false⟩, ⟨0, [2], false⟩, ⟨0, [2], false⟩, ⟨0, [2, 3], false⟩,
      ⟨0, [2, 3], true⟩, ⟨1, [1], true⟩] := by
  refine ⟨_, _, rfl, ?_, ?_, ?_, ?_, ?_⟩ <;> decide +kernel

/-- The steps of the pose graph of the receiver for its calls of `AddNode`, each followed by its work item with `n` calls of
`ComputeConstraint`. -/
def steps : List (Call × Nat) → List (PoseGraph.Act Nat)
  | [] => []
  | (c, n) :: l => [.addNode c.traj c.ins c.newlyFinished, .enqueue 0, .run [0, 0]] ++
      List.replicate n (.search .skip) ++ [.endSearch] ++ steps l

/-- The pose graph of the receiver aborts with the calls above: the work item of the last node checks that a single
submap is the first one of its trajectory (pose_graph_2d.cc 82-97). -/
theorem shared_index_aborts : ∃ s c x y, pipeline false (fun _ => 2) (enc2d id) (Controller.kind2d (List Nat)) {} {} interleaved =
    some (s, c) ∧ c.calls = x ++ [y] ∧
    PoseGraph.AbortsAfter (steps (x.zip [0, 0, 0, 0, 0, 0, 3]) ++ [.addNode y.traj y.ins y.newlyFinished, .enqueue 0])
      (.run [0, 0]) :=
  ⟨_, _, [⟨1, [0], false⟩, ⟨1, [0], false⟩, ⟨1, [0, 1], false⟩, ⟨0, [2], false⟩, ⟨0, [2], false⟩, ⟨0, [2, 3], false⟩,
      ⟨0, [2, 3], true⟩], ⟨1, [1], true⟩, rfl, by decide +kernel, PoseGraph.abortsAfter_of (by rfl)⟩

/-- In three dimensions the receiver passes a null pointer on (local_slam_result_3d.cc 36-44) and aborts right away. -/
theorem null_submap_aborts : (pipeline true (fun _ => 2) (enc3d id id List.length) (Controller.kind3d (List Nat) Nat) {} {}
      interleaved).isNone ∧
    (pipeline true (fun _ => 2) (enc3d id id List.length) (Controller.kind3d (List Nat) Nat) {} {}
      interleaved.dropLast).isSome := by decide +kernel

/-- The same range data, one trajectory after the other: nothing is mixed up. -/
example : ∀ t, Undisturbed (fun _ => 2) [((1 : Int), 20), (1, 21), (1, 22), (1, 23), (0, 10), (0, 11), (0, 12), (0, 13)] t := by
  intro t a u r b he hu h1 h2
  have : a = ([((1 : Int), 20), (1, 21), (1, 22), (1, 23), (0, 10), (0, 11), (0, 12), (0, 13)] : List (Int × Nat)).take a.length ∧
      (u, r) :: b = ([((1 : Int), 20), (1, 21), (1, 22), (1, 23), (0, 10), (0, 11), (0, 12), (0, 13)] : List (Int × Nat)).drop
        a.length := by
    rw [he]; simp
  obtain ⟨ha, hb⟩ := this
  have hl : a.length < 8 := by
    have := congrArg List.length he
    simp at this
    omega
  generalize a.length = i at ha hb hl
  subst ha
  clear he
  obtain rfl | rfl | rfl | rfl | rfl | rfl | rfl | rfl : i = 0 ∨ i = 1 ∨ i = 2 ∨ i = 3 ∨ i = 4 ∨ i = 5 ∨ i = 6 ∨ i = 7 := by
    omega
  all_goals
    simp only [List.drop_succ_cons, List.drop_zero, List.cons.injEq, Prod.mk.injEq] at hb
    obtain ⟨⟨rfl, rfl⟩, rfl⟩ := hb
    simp at h1 h2
    try omega

end Verif.SlamUpload
