import Verif.Localization
import Verif.LocalSlamGraphInvariant
import Verif.LoadWhileRunningInvariant

/-!
# Localization in a loaded map: maps without their first elements

`PureLocalizationTrimmer` removes the oldest submaps of a trajectory, and the nodes that are only in these.  What is left of a map is compared with the map nothing was removed from.
-/

namespace Verif.Localize

open PoseGraph
open MapById

variable {D : Type} {mine : Int → Bool}

/-! ### The last element of a trajectory -/

/-- The trajectory has no element. -/
def Empty (m : Map D) (t : Int) : Prop := ∀ i, at? m (t, i) = none

/-- The last element of the trajectory has index `j`. -/
def Last (m : Map D) (t j : Int) : Prop := (at? m (t, j)).isSome ∧ ∀ i, j < i → at? m (t, i) = none

theorem at_of_mem {m : Map D} (hm : WF m) {t : Int} {tr : Traj D} (hg : SMap.get? t m = some tr) {e : Int × D} (he : e ∈ tr.data) : at? m (t, e.1) = some e.2 := by
  unfold at?
  simp only [hg, Option.bind_some]
  exact SMap.get?_of_mem (hm.dsorted _ (SMap.mem_of_get? hg)) he

theorem empty_get {m : Map D} (hm : WF m) {t : Int} (h : Empty m t) : SMap.get? t m = none := by
  cases hg : SMap.get? t m with
  | none => rfl
  | some tr =>
    have hne := hm.nonempty _ (SMap.mem_of_get? hg)
    cases hd : tr.data with
    | nil => exact absurd hd hne
    | cons e l =>
      have := at_of_mem hm hg (e := e) (by rw [hd]; simp)
      rw [h] at this
      cases this

theorem last_get {m : Map D} (hm : WF m) {t j : Int} (h : Last m t j) : ∃ tr l d, SMap.get? t m = some tr ∧ tr.data = l ++ [(j, d)] := by
  obtain ⟨h1, h2⟩ := h
  obtain ⟨d, hd⟩ := Option.isSome_iff_exists.1 h1
  unfold at? at hd
  simp only [Option.bind_eq_some_iff] at hd
  obtain ⟨tr, hg, hd⟩ := hd
  have hmem := SMap.mem_of_get? hd
  have hs := hm.dsorted _ (SMap.mem_of_get? hg)
  rcases List.eq_nil_or_concat tr.data with hn | ⟨l, x, hx⟩
  · rw [hn] at hmem; cases hmem
  · rw [List.concat_eq_append] at hx
    have hx1 : ¬ j < x.1 := by
      intro hlt
      have := at_of_mem hm hg (e := x) (by rw [hx]; simp)
      rw [h2 _ hlt] at this
      cases this
    refine ⟨tr, l, x.2, hg, ?_⟩
    dsimp only at hs
    rw [hx] at hmem hs
    have : x.1 = j := by
      rcases List.mem_append.1 hmem with hl | hl
      · have := (List.pairwise_append.1 hs).2.2 _ hl x (by simp)
        dsimp only at this
        omega
      · simp only [List.mem_singleton] at hl
        rw [← hl]
    rw [hx, ← this]

theorem last_lastId {m : Map D} (hm : WF m) {t j : Int} (h : Last m t j) : lastId m t = some (t, j) ∧ nextIndex (trajOrNew m t).data = j + 1 ∧ sizeOfTrajectoryOrZero m t ≠ 0 := by
  obtain ⟨tr, l, d, h1, h2⟩ := last_get hm h
  refine ⟨?_, ?_, ?_⟩
  · unfold lastId idsOf
    rw [h1]
    simp [h2]
  · unfold trajOrNew nextIndex
    rw [h1]
    simp [h2]
  · unfold sizeOfTrajectoryOrZero
    rw [h1]
    simp [h2]

theorem empty_lastId {m : Map D} (hm : WF m) {t : Int} (h : Empty m t) : lastId m t = none ∧ nextIndex (trajOrNew m t).data = 0 ∧ sizeOfTrajectoryOrZero m t = 0 := by
  have hg := empty_get hm h
  unfold lastId idsOf trajOrNew nextIndex sizeOfTrajectoryOrZero
  rw [hg]
  exact ⟨rfl, rfl, rfl⟩

/-! ### The ids of a trajectory -/

theorem mem_idsOf {m : Map D} (hm : WF m) {t : Int} {id : Id} : id ∈ idsOf m t ↔ id.1 = t ∧ (at? m id).isSome := by
  obtain ⟨u, i⟩ := id
  unfold idsOf
  cases hg : SMap.get? t m with
  | none =>
    simp only [Option.elim_none, List.map_nil, List.not_mem_nil, false_iff, not_and]
    rintro rfl
    simp [at?, hg]
  | some tr =>
    simp only [Option.elim_some, List.mem_map, Prod.mk.injEq]
    constructor
    · rintro ⟨e, he, rfl, rfl⟩
      exact ⟨rfl, by rw [at_of_mem hm hg he]; rfl⟩
    · rintro ⟨rfl, h⟩
      obtain ⟨d, hd⟩ := Option.isSome_iff_exists.1 h
      simp only [at?, hg, Option.bind_some] at hd
      exact ⟨_, SMap.mem_of_get? hd, rfl, rfl⟩

theorem idsOf_sorted {m : Map D} (hm : WF m) (t : Int) : (idsOf m t).Pairwise (fun a b => a.2 < b.2) := by
  unfold idsOf
  rw [List.pairwise_map]
  cases hg : SMap.get? t m with
  | none => simp
  | some tr => exact hm.dsorted _ (SMap.mem_of_get? hg)

/-- Ids of one trajectory in ascending order are determined by which ones there are. -/
theorem ids_ext {t : Int} {l l' : List Id} (h : l.Pairwise (fun a b => a.2 < b.2)) (h' : l'.Pairwise (fun a b => a.2 < b.2)) (ht : ∀ x ∈ l, x.1 = t) (ht' : ∀ x ∈ l', x.1 = t)
    (he : ∀ i, (t, i) ∈ l ↔ (t, i) ∈ l') : l = l' := by
  have hs : ∀ {k : List Id}, k.Pairwise (fun a b => a.2 < b.2) → SMap.Sorted (k.map fun x => ((x.2, ()) : Int × Unit)) := by
    intro k hk
    unfold SMap.Sorted
    rw [List.pairwise_map]
    exact hk
  have key : ∀ {k : List Id}, k.Pairwise (fun a b => a.2 < b.2) → (∀ x ∈ k, x.1 = t) → ∀ i, SMap.get? i (k.map fun x => ((x.2, ()) : Int × Unit)) = some () ↔ (t, i) ∈ k := by
    intro k hk hkt i
    rw [SMap.get?_iff_mem (hs hk), List.mem_map]
    constructor
    · rintro ⟨x, hx, e⟩
      have := hkt x hx
      simp only [Prod.mk.injEq, and_true] at e
      rw [← this, ← e]
      exact hx
    · intro hx
      exact ⟨_, hx, rfl⟩
  have := SMap.ext (hs h) (hs h') (fun i => by
    have a := key h ht i
    have b := key h' ht' i
    cases e1 : SMap.get? i (l.map fun x => ((x.2, ()) : Int × Unit)) with
    | none =>
      cases e2 : SMap.get? i (l'.map fun x => ((x.2, ()) : Int × Unit)) with
      | none => rfl
      | some _ =>
        rw [a.2 ((he i).2 (b.1 e2))] at e1
        cases e1
    | some _ => rw [b.2 ((he i).1 (a.1 e1))])
  have e := congrArg (List.map fun x : Int × Unit => ((t, x.1) : Id)) this
  rw [List.map_map, List.map_map] at e
  have idm : ∀ {k : List Id}, (∀ x ∈ k, x.1 = t) → k.map ((fun x : Int × Unit => ((t, x.1) : Id)) ∘ fun x => ((x.2, ()) : Int × Unit)) = k := by
    intro k hk
    conv_rhs => rw [← List.map_id k]
    apply List.map_congr_left
    intro x hx
    simp only [Function.comp, id_eq, ← hk x hx]
  rwa [idm ht, idm ht'] at e

theorem idsOf_congr {E : Type} {m : Map D} {m' : Map E} (hm : WF m) (hm' : WF m') {t : Int} (h : ∀ i, (at? m (t, i)).isSome ↔ (at? m' (t, i)).isSome) : idsOf m t = idsOf m' t := by
  refine ids_ext (idsOf_sorted hm t) (idsOf_sorted hm' t) (fun x hx => ((mem_idsOf hm).1 hx).1) (fun x hx => ((mem_idsOf hm').1 hx).1) ?_
  intro i
  rw [mem_idsOf hm, mem_idsOf hm', h]

theorem size_idsOf (m : Map D) (t : Int) : sizeOfTrajectoryOrZero m t = (idsOf m t).length := by
  unfold sizeOfTrajectoryOrZero idsOf
  cases SMap.get? t m <;> simp

/-! ### Maps without their first elements -/

/-- Of the trajectories that do not come from files, `m` has the elements of `m0` from index `lo t` on, and elements can be appended. -/
structure Cut (mine : Int → Bool) (lo : Int → Nat) (m m0 : Map D) : Prop where
  wf : WF m
  wf0 : WF m0
  at_eq : ∀ t, mine t = false → ∀ i, at? m (t, i) = if (lo t : Int) ≤ i then at? m0 (t, i) else none
  app : ∀ t, mine t = false → ∀ tr, SMap.get? t m = some tr → tr.canAppend = true

variable {lo : Int → Nat} {m m0 : Map D}

theorem Cut.nil : Cut mine lo ([] : Map D) [] := ⟨wf_nil, wf_nil, (by intro t _ i; simp [at?, SMap.get?]), (by intro t _ tr h; simp [SMap.get?] at h)⟩

theorem Cut.live (c : Cut mine lo m m0) {id : Id} (ht : mine id.1 = false) (hi : (lo id.1 : Int) ≤ id.2) : at? m id = at? m0 id := by
  have := c.at_eq id.1 ht id.2
  rw [if_pos hi] at this
  exact this

theorem Cut.is_some (c : Cut mine lo m m0) {id : Id} (ht : mine id.1 = false) {d : D} (h : at? m id = some d) : (lo id.1 : Int) ≤ id.2 ∧ at? m0 id = some d := by
  have := c.at_eq id.1 ht id.2
  split at this
  · rename_i hl
    refine ⟨hl, ?_⟩
    rw [← h]
    exact this.symm
  · rw [show ((id.1, id.2) : Id) = id from rfl, h] at this
    cases this

theorem Cut.last (c : Cut mine lo m m0) {t j : Int} (ht : mine t = false) (h : Last m0 t j) (hj : (lo t : Int) ≤ j) : Last m t j := by
  refine ⟨?_, ?_⟩
  · rw [c.at_eq t ht, if_pos hj]
    exact h.1
  · intro i hi
    rw [c.at_eq t ht, h.2 i hi]
    simp

theorem Cut.empty (c : Cut mine lo m m0) {t : Int} (ht : mine t = false) (h : Empty m0 t) : Empty m t := by
  intro i
  rw [c.at_eq t ht, h i]
  simp

/-- The trajectory is empty or its last element was not removed. -/
def Alive (lo : Int → Nat) (m0 : Map D) (t : Int) : Prop := (Empty m0 t ∧ lo t = 0) ∨ ∃ j, Last m0 t j ∧ (lo t : Int) ≤ j

theorem append_get {m m' : Map D} {t : Int} {d : D} {id : Id} (h : append m t d = some (m', id)) :
    (∀ u, u ≠ t → SMap.get? u m' = SMap.get? u m) ∧ ∀ tr, SMap.get? t m' = some tr → tr.canAppend = true := by
  simp only [append] at h
  split at h
  · cases h
  · split at h
    · rename_i hc
      simp only [Option.some.injEq, Prod.mk.injEq] at h
      obtain ⟨rfl, _⟩ := h
      refine ⟨fun u hu => by rw [SMap.get?_put, if_neg (Ne.symm hu)], ?_⟩
      intro tr htr
      rw [SMap.get?_put, if_pos rfl] at htr
      cases htr
      exact hc
    · cases h

theorem append_some {m : Map D} {t : Int} (h0 : 0 ≤ t) (h : ∀ tr, SMap.get? t m = some tr → tr.canAppend = true) (d : D) :
    ∃ m', append m t d = some (m', (t, nextIndex (trajOrNew m t).data)) := by
  have hc : (trajOrNew m t).canAppend = true := by
    unfold trajOrNew
    cases hg : SMap.get? t m with
    | none => rfl
    | some tr => exact h tr hg
  unfold append
  rw [if_neg (by omega)]
  simp only [hc, if_true]
  exact ⟨_, rfl⟩

theorem append_nonneg {m m' : Map D} {t : Int} {d : D} {id : Id} (h : append m t d = some (m', id)) : 0 ≤ t := by
  simp only [append] at h
  split at h
  · cases h
  · omega

theorem Cut.next (c : Cut mine lo m m0) {t : Int} (ht : mine t = false) (ha : Alive lo m0 t) :
    nextIndex (trajOrNew m t).data = nextIndex (trajOrNew m0 t).data ∧ (lo t : Int) ≤ nextIndex (trajOrNew m0 t).data ∧ lastId m t = lastId m0 t ∧
      (sizeOfTrajectoryOrZero m t = 0 ↔ sizeOfTrajectoryOrZero m0 t = 0) := by
  rcases ha with ⟨h, h0⟩ | ⟨j, h, hj⟩
  · obtain ⟨a1, a2, a3⟩ := empty_lastId c.wf0 h
    obtain ⟨b1, b2, b3⟩ := empty_lastId c.wf (c.empty ht h)
    refine ⟨by rw [a2, b2], by rw [a2, h0]; simp, by rw [a1, b1], by rw [a3, b3]⟩
  · obtain ⟨a1, a2, a3⟩ := last_lastId c.wf0 h
    obtain ⟨b1, b2, b3⟩ := last_lastId c.wf (c.last ht h hj)
    refine ⟨by rw [a2, b2], by rw [a2]; omega, by rw [a1, b1], by simp [a3, b3]⟩

/-- Appending to both. -/
theorem Cut.append_both (c : Cut mine lo m m0) {t : Int} (ht : mine t = false) (ha : Alive lo m0 t) {d : D} {m0' : Map D} {id : Id} (h : append m0 t d = some (m0', id)) :
    ∃ m', MapById.append m t d = some (m', id) ∧ Cut mine lo m' m0' ∧ ∀ u, u ≠ t → SMap.get? u m' = SMap.get? u m := by
  obtain ⟨n1, n2, _⟩ := c.next ht ha
  obtain ⟨m', h'⟩ := append_some (append_nonneg h) (c.app t ht) d
  have hid := append_id h
  rw [n1, ← hid] at h'
  obtain ⟨w0, _, _, q0⟩ := append_spec c.wf0 h
  obtain ⟨w, _, _, q⟩ := append_spec c.wf h'
  obtain ⟨g1, g2⟩ := append_get h'
  refine ⟨m', h', ⟨w, w0, ?_, ?_⟩, g1⟩
  · intro u hu i
    rw [q, q0]
    by_cases he : id = (u, i)
    · rw [if_pos he, if_pos he]
      rw [hid] at he
      simp only [Prod.mk.injEq] at he
      obtain ⟨rfl, rfl⟩ := he
      rw [if_pos n2]
    · rw [if_neg he, if_neg he]
      exact c.at_eq u hu i
  · intro u hu tr htr
    by_cases he : u = t
    · subst he
      exact g2 tr htr
    · rw [g1 u he] at htr
      exact c.app u hu tr htr

theorem assign_get {m m' : Map D} {id : Id} {d : D} (h : assign m id d = some m') :
    (∀ u, u ≠ id.1 → SMap.get? u m' = SMap.get? u m) ∧ ∀ tr, SMap.get? id.1 m' = some tr → ∃ tr', SMap.get? id.1 m = some tr' ∧ tr.canAppend = tr'.canAppend := by
  simp only [assign] at h
  split at h
  · cases h
  · rename_i tr htr
    split at h
    · cases h
    · obtain rfl := Option.some.inj h
      refine ⟨fun u hu => by rw [SMap.get?_put, if_neg (Ne.symm hu)], ?_⟩
      intro tr' h'
      rw [SMap.get?_put, if_pos rfl] at h'
      cases h'
      exact ⟨tr, htr, rfl⟩

/-- Assigning to both. -/
theorem Cut.assign_both (c : Cut mine lo m m0) {id : Id} (ht : mine id.1 = false) (hi : (lo id.1 : Int) ≤ id.2) {d : D} {m0' : Map D} (h : assign m0 id d = some m0') :
    ∃ m', MapById.assign m id d = some m' ∧ Cut mine lo m' m0' ∧ ∀ u, u ≠ id.1 → SMap.get? u m' = SMap.get? u m := by
  obtain ⟨w0, hs, q0⟩ := assign_spec c.wf0 h
  rw [← c.live ht hi] at hs
  obtain ⟨m', h'⟩ := Loading.assign_some (d := d) hs
  obtain ⟨w, _, q⟩ := assign_spec c.wf h'
  obtain ⟨g1, g2⟩ := assign_get h'
  refine ⟨m', h', ⟨w, w0, ?_, ?_⟩, g1⟩
  · intro u hu i
    rw [q, q0]
    by_cases he : id = (u, i)
    · rw [if_pos he, if_pos he]
      subst he
      rw [if_pos hi]
    · rw [if_neg he, if_neg he]
      exact c.at_eq u hu i
  · intro u hu tr htr
    by_cases he : u = id.1
    · subst he
      obtain ⟨tr', h1, h2⟩ := g2 tr htr
      rw [h2]
      exact c.app _ hu tr' h1
    · rw [g1 u he] at htr
      exact c.app u hu tr htr

/-- A map that changes only in the trajectories that come from files. -/
theorem Cut.frame (c : Cut mine lo m m0) {m' : Map D} (w : WF m') (h : ∀ t, mine t = false → SMap.get? t m' = SMap.get? t m) : Cut mine lo m' m0 := by
  refine ⟨w, c.wf0, ?_, ?_⟩
  · intro t ht i
    rw [← c.at_eq t ht i]
    simp only [at?, h t ht]
  · intro t ht tr htr
    rw [h t ht] at htr
    exact c.app t ht tr htr

/-! ### Trimming -/

theorem trim_get {m m' : Map D} (hm : WF m) {id : Id} (h : trim m id = some m') :
    (∀ u, u ≠ id.1 → SMap.get? u m' = SMap.get? u m) ∧
      ∀ tr, SMap.get? id.1 m' = some tr → (∃ j, id.2 < j ∧ (at? m (id.1, j)).isSome) → ∃ tr', SMap.get? id.1 m = some tr' ∧ tr.canAppend = tr'.canAppend := by
  simp only [trim] at h
  split at h
  · cases h
  · rename_i tr htr
    split at h
    · cases h
    · split at h
      · obtain rfl := Option.some.inj h
        refine ⟨fun u hu => by rw [SMap.get?_erase, if_neg (Ne.symm hu)], ?_⟩
        intro tr' h'
        rw [SMap.get?_erase, if_pos rfl] at h'
        cases h'
      · obtain rfl := Option.some.inj h
        refine ⟨fun u hu => by rw [SMap.get?_put, if_neg (Ne.symm hu)], ?_⟩
        rintro tr' h' ⟨j, hj, hs⟩
        rw [SMap.get?_put, if_pos rfl] at h'
        cases h'
        refine ⟨tr, htr, ?_⟩
        obtain ⟨d, hd⟩ := Option.isSome_iff_exists.1 hs
        simp only [at?, htr, Option.bind_some] at hd
        have hmem := SMap.mem_of_get? hd
        have hso := hm.dsorted _ (SMap.mem_of_get? htr)
        dsimp only at hso
        rw [if_neg]
        unfold isLast
        simp only [beq_iff_eq, Option.map_eq_some_iff, not_exists, not_and]
        intro e he hid
        rcases List.eq_nil_or_concat tr.data with hn | ⟨l, x, hx⟩
        · rw [hn] at hmem; cases hmem
        · rw [List.concat_eq_append] at hx
          rw [hx] at he hmem hso
          simp only [List.getLast?_append, List.getLast?_singleton, Option.some_or, Option.some.injEq] at he
          subst he
          rcases List.mem_append.1 hmem with hl | hl
          · have := (List.pairwise_append.1 hso).2.2 _ hl x (by simp)
            dsimp only at this
            omega
          · simp only [List.mem_singleton] at hl
            rw [← hl] at hid
            dsimp only at hid
            omega

theorem trimAll_get {t : Int} : ∀ {l : List Id} {m m' : Map D}, WF m → trimAll m l = some m' → (∀ id ∈ l, id.1 = t) →
    (∀ u, u ≠ t → SMap.get? u m' = SMap.get? u m) ∧
      ∀ tr, SMap.get? t m' = some tr → (∃ j, (∀ id ∈ l, id.2 < j) ∧ (at? m' (t, j)).isSome) → ∃ tr', SMap.get? t m = some tr' ∧ tr.canAppend = tr'.canAppend := by
  intro l
  induction l with
  | nil =>
    intro m m' _ h _
    obtain rfl := Option.some.inj h
    exact ⟨fun _ _ => rfl, fun tr htr _ => ⟨tr, htr, rfl⟩⟩
  | cons x l ih =>
    intro m m' hm h hl
    have h0 := h
    simp only [trimAll, Option.bind_eq_bind, Option.bind_eq_some_iff] at h
    obtain ⟨m1, h1, h2⟩ := h
    obtain ⟨w1, _, q1⟩ := trim_spec hm h1
    obtain ⟨a1, a2⟩ := trim_get hm h1
    obtain ⟨b1, b2⟩ := ih w1 h2 (fun id hid => hl id (List.mem_cons_of_mem _ hid))
    have hx := hl x List.mem_cons_self
    rw [hx] at a1 a2
    refine ⟨fun u hu => (b1 u hu).trans (a1 u hu), ?_⟩
    rintro tr htr ⟨j, hj, hs⟩
    obtain ⟨tr1, c1, c2⟩ := b2 tr htr ⟨j, fun id hid => hj id (List.mem_cons_of_mem _ hid), hs⟩
    have hjm : (at? m (t, j)).isSome := by
      obtain ⟨_, q2⟩ := PoseGraph.trimAll_spec hm h0
      rw [q2] at hs
      split at hs
      · cases hs
      · exact hs
    obtain ⟨tr2, d1, d2⟩ := a2 tr1 c1 ⟨j, hj x List.mem_cons_self, hjm⟩
    exact ⟨tr2, d1, c2.trans d2⟩

/-- Trimming what comes next: elements of one trajectory below `lo' t`, all that there are. -/
theorem Cut.trim_all (c : Cut mine lo m m0) {t : Int} {l : List Id} (hn : l.Nodup) {k : Nat} (hk : lo t ≤ k) (hl : ∀ id : Id, id ∈ l ↔ id.1 = t ∧ id.2 < (k : Int) ∧ (at? m id).isSome) :
    ∃ m', PoseGraph.trimAll m l = some m' ∧ Cut mine (Function.update lo t k) m' m0 ∧ ∀ u, u ≠ t → SMap.get? u m' = SMap.get? u m := by
  have ht : ∀ id ∈ l, id.1 = t := fun id hid => ((hl id).1 hid).1
  obtain ⟨m', h⟩ := Option.isSome_iff_exists.1 (PoseGraph.trimAll_total c.wf hn (fun id hid => ((hl id).1 hid).2.2))
  obtain ⟨w, q⟩ := PoseGraph.trimAll_spec c.wf h
  obtain ⟨g1, g2⟩ := trimAll_get c.wf h ht
  refine ⟨m', h, ⟨w, c.wf0, ?_, ?_⟩, g1⟩
  · intro u hu i
    rw [q]
    by_cases he : u = t
    · subst he
      rw [Function.update_self]
      by_cases hki : (k : Int) ≤ i
      · rw [if_pos hki, if_neg, c.at_eq u hu, if_pos (by omega)]
        intro hm
        have := ((hl _).1 hm).2.1
        dsimp only at this
        omega
      · rw [if_neg hki]
        split
        · rfl
        · rename_i hni
          cases hs : at? m (u, i) with
          | none => rfl
          | some d =>
            refine absurd ((hl (u, i)).2 ⟨rfl, ?_, by rw [hs]; rfl⟩) hni
            dsimp only
            omega
    · rw [Function.update_of_ne he, if_neg (fun hm => he ((hl _).1 hm).1)]
      exact c.at_eq u hu i
  · intro u hu tr htr
    by_cases he : u = t
    · subst he
      have hne := w.nonempty _ (SMap.mem_of_get? htr)
      cases hd : tr.data with
      | nil => exact absurd hd hne
      | cons e es =>
        have hat := at_of_mem w htr (e := e) (by rw [hd]; simp)
        have hke : (k : Int) ≤ e.1 := by
          by_contra hlt
          rw [q] at hat
          split at hat
          · cases hat
          · rename_i hni
            exact hni ((hl (u, e.1)).2 ⟨rfl, by dsimp only; omega, by rw [hat]; rfl⟩)
        obtain ⟨tr', h1, h2⟩ := g2 tr htr ⟨e.1, fun id hid => by have := ((hl id).1 hid).2.1; omega, by rw [hat]; rfl⟩
        rw [h2]
        exact c.app u hu tr' h1
    · rw [g1 u he] at htr
      exact c.app u hu tr htr

end Verif.Localize
