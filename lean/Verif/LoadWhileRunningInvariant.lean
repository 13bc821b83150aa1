import Verif.LoadWhileRunningLemmas

/-!
# Loading a map while the pose graph is in use: the invariant

What the pose graph has of the trajectories being loaded is determined by the calls made and the work items run.
-/

namespace Verif.Loading

open PoseGraph
open MapById (Id Map at? WF)

variable {P : Type} {mine : Int → Bool}

/-! ### Items of calls -/

/-- The work items of the load among those of the calls. -/
def items (mine : Int → Bool) (made : List (Act P)) : List (Item P) := (made.map itemOf).filter (ownItem mine)

theorem items_append {l l' : List (Act P)} : items mine (l ++ l') = items mine l ++ items mine l' := by simp [items]

theorem good_prefix {calls made left : List (Act P)} (g : Good mine calls) (h : calls = made ++ left) : Good mine made := by
  intro b a l hl
  subst h
  subst hl
  exact g b a (l ++ left) (by simp)

theorem good_mem {calls : List (Act P)} (g : Good mine calls) {a : Act P} (h : a ∈ calls) : ∃ b, (∃ l, calls = b ++ a :: l) ∧ Ready mine (b.map itemOf) a := by
  obtain ⟨b, l, rfl⟩ := List.append_of_mem h
  exact ⟨b, ⟨l, rfl⟩, g b a l rfl⟩

theorem subs_call {calls : List (Act P)} (g : Good mine calls) {id : Id} (h : id ∈ (calls.map itemOf).flatMap subsOf) : ∃ ptr, Act.addSubmapFromProto id ptr ∈ calls := by
  obtain ⟨i, hi, hid⟩ := List.mem_flatMap.1 h
  obtain ⟨a, ha, rfl⟩ := List.mem_map.1 hi
  obtain ⟨b, _, r⟩ := good_mem g ha
  cases a with
  | addSubmapFromProto i ptr =>
    simp only [itemOf, subsOf, List.mem_singleton] at hid
    subst hid
    exact ⟨ptr, ha⟩
  | post i => cases i <;> first | exact r.elim | cases hid
  | _ => cases hid

theorem subs_mine {calls : List (Act P)} (g : Good mine calls) {id : Id} (h : id ∈ (calls.map itemOf).flatMap subsOf) : mine id.1 = true := by
  obtain ⟨ptr, ha⟩ := subs_call g h
  obtain ⟨b, _, r⟩ := good_mem g ha
  exact r.1

theorem nodes_call {calls : List (Act P)} (g : Good mine calls) {id : Id} (h : id ∈ (calls.map itemOf).flatMap nodesOf) : Act.addNodeFromProto id ∈ calls := by
  obtain ⟨i, hi, hid⟩ := List.mem_flatMap.1 h
  obtain ⟨a, ha, rfl⟩ := List.mem_map.1 hi
  obtain ⟨b, _, r⟩ := good_mem g ha
  cases a with
  | addNodeFromProto i =>
    simp only [itemOf, nodesOf, List.mem_singleton] at hid
    subst hid
    exact ha
  | post i => cases i <;> first | exact r.elim | cases hid
  | _ => cases hid

theorem nodes_mine {calls : List (Act P)} (g : Good mine calls) {id : Id} (h : id ∈ (calls.map itemOf).flatMap nodesOf) : mine id.1 = true := by
  obtain ⟨b, _, r⟩ := good_mem g (nodes_call g h)
  exact r.1

/-- The items of calls that are ready belong to the load, except that of no constraints. -/
theorem ready_own {before : List (Act P)} {a : Act P} (g : Good mine before) (r : Ready mine (before.map itemOf) a) :
    ownItem mine (itemOf a) = true ∨ a = .post (.serialized []) := by
  cases a with
  | addSubmapFromProto id ptr => exact Or.inl r.1
  | addNodeFromProto id => exact Or.inl r.1
  | post i =>
    cases i with
    | freeze t => exact Or.inl r.1
    | data t => exact Or.inl r
    | nodeToSubmap n i =>
      refine Or.inl ?_
      simp [itemOf, ownItem, nodes_mine g r.1, subs_mine g r.2]
    | serialized cs =>
      cases cs with
      | nil => exact Or.inr rfl
      | cons c cs =>
        refine Or.inl ?_
        simp only [itemOf, ownItem, List.isEmpty_cons, Bool.not_false, Bool.true_and, List.all_eq_true, Bool.and_eq_true]
        intro c' hc
        obtain ⟨h1, h2⟩ := r.1 c' hc
        exact ⟨nodes_mine g h1, subs_mine g h2⟩
    | _ => exact r.elim
  | _ => exact r.elim

/-- Members are named after their submaps. -/
theorem members_subs {calls : List (Act P)} (g : Good mine calls) {n id : Id} (h : (n, id) ∈ (calls.map itemOf).flatMap membersOf) : id ∈ (calls.map itemOf).flatMap subsOf := by
  obtain ⟨i, hi, hid⟩ := List.mem_flatMap.1 h
  obtain ⟨a, ha, rfl⟩ := List.mem_map.1 hi
  obtain ⟨b, ⟨l, rfl⟩, r⟩ := good_mem g ha
  rw [List.map_append, List.flatMap_append]
  apply List.mem_append_left
  cases a with
  | post i =>
    cases i with
    | nodeToSubmap m j =>
      simp only [itemOf, membersOf, List.mem_singleton, Prod.mk.injEq] at hid
      rw [hid.2]
      exact r.2
    | serialized cs =>
      simp only [itemOf, membersOf, pairs, List.mem_map, List.mem_filter] at hid
      obtain ⟨c, ⟨hc, _⟩, he⟩ := hid
      cases he
      exact (r.1 c hc).2
    | _ => cases hid
  | _ => cases hid

theorem flat_filter {β α : Type} {f : α → List β} {q : α → Bool} {l : List α} (h : ∀ x ∈ l, q x = false → f x = []) : (l.filter q).flatMap f = l.flatMap f := by
  induction l with
  | nil => rfl
  | cons a l ih =>
    have ih' := ih (fun b hb => h b (List.mem_cons_of_mem _ hb))
    rw [List.filter_cons]
    split
    · simp only [List.flatMap_cons, ih']
    · rename_i ho
      rw [List.flatMap_cons, h a List.mem_cons_self (by simpa using ho), List.nil_append, ih']

/-- The items left out say nothing. -/
theorem flat_items {β : Type} {f : Item P → List β} (he : f (.serialized []) = []) {made : List (Act P)} (hg : Good mine made) : (items mine made).flatMap f = (made.map itemOf).flatMap f := by
  apply flat_filter
  intro x hx ho
  obtain ⟨a, ha, rfl⟩ := List.mem_map.1 hx
  obtain ⟨b, ⟨l, hl⟩, r⟩ := good_mem hg ha
  rcases ready_own (good_prefix hg hl) r with h | rfl
  · rw [h] at ho; cases ho
  · exact he

/-- The next item of the load belongs to a call, and the items before it to the calls before. -/
theorem items_split {made : List (Act P)} : ∀ {done rest : List (Item P)} {item : Item P}, items mine made = done ++ item :: rest →
    ∃ pre a post, made = pre ++ a :: post ∧ itemOf a = item ∧ items mine pre = done := by
  induction made with
  | nil => intro done rest item h; simp [items] at h
  | cons a made ih =>
    intro done rest item h
    have hc : items mine (a :: made) = items mine [a] ++ items mine made := items_append (l := [a])
    rw [hc] at h
    have h1 : items mine [a] = if ownItem mine (itemOf a) = true then [itemOf a] else [] := by
      simp only [items, List.map_cons, List.map_nil, List.filter_cons, List.filter_nil]
    rw [h1] at h
    split at h
    · rename_i ho
      cases done with
      | nil =>
        simp only [List.nil_append, List.singleton_append, List.cons.injEq] at h
        exact ⟨[], a, made, rfl, h.1, rfl⟩
      | cons d done =>
        simp only [List.singleton_append, List.cons_append, List.cons.injEq] at h
        obtain ⟨pre, b, post, rfl, h2, h3⟩ := ih h.2
        refine ⟨a :: pre, b, post, rfl, h2, ?_⟩
        rw [show items mine (a :: pre) = items mine [a] ++ items mine pre from items_append (l := [a]), h1, if_pos ho, h.1, h3]
        rfl
    · rename_i ho
      obtain ⟨pre, b, post, rfl, h2, h3⟩ := ih h
      refine ⟨a :: pre, b, post, rfl, h2, ?_⟩
      rw [show items mine (a :: pre) = items mine [a] ++ items mine pre from items_append (l := [a]), h1, if_neg ho, h3]
      rfl

/-! ### The queue -/

theorem other_not_own {i : Item P} (h : otherItem mine i = true) : ownItem mine i = false := by
  cases i with
  | computeConstraints n a b => rfl
  | finish t => rfl
  | delete t => rfl
  | addTrimmer tr => rfl
  | data t => simpa [otherItem, ownItem] using h
  | freeze t => simpa [otherItem, ownItem] using h
  | submapFromProto id => simpa [otherItem, ownItem] using h
  | nodeFromProto id => simpa [otherItem, ownItem] using h
  | nodeToSubmap n id =>
    simp only [otherItem, Bool.and_eq_true, Bool.not_eq_true'] at h
    simp [ownItem, h.1]
  | serialized cs =>
    cases cs with
    | nil => rfl
    | cons c cs =>
      simp only [otherItem, List.all_cons, Bool.and_eq_true, Bool.not_eq_true'] at h
      simp [ownItem, h.1.1]

/-- The same queues. -/
def SameQ (s s' : State P) : Prop := s'.queue = s.queue ∧ s'.inflight = s.inflight

theorem sameT_q {s s' : State P} (h : SameT s s') : SameQ s s' := ⟨h.queue, h.inflight⟩

theorem runItem_q {s s' : State P} {poses : List P} {item : Item P} (wf : Wf s) (h : runItem s poses item = some s') : SameQ s s' := by
  cases item with
  | computeConstraints node ins nf => exact sameT_q (computeConstraints_same wf h)
  | data t =>
    simp only [runItem] at h
    split at h
    · obtain rfl := Option.some.inj h; exact ⟨rfl, rfl⟩
    · cases h
  | finish t =>
    simp only [runItem, Option.bind_eq_bind, Option.bind_eq_some_iff, guard_some, Option.some.injEq] at h
    obtain ⟨_, h1, submaps, h2, rfl⟩ := h
    exact ⟨rfl, rfl⟩
  | freeze t =>
    simp only [runItem, Option.bind_eq_bind, Option.bind_eq_some_iff, guard_some, Option.some.injEq] at h
    obtain ⟨_, h1, rfl⟩ := h
    exact ⟨rfl, rfl⟩
  | delete t =>
    simp only [runItem, Option.bind_eq_bind, Option.bind_eq_some_iff, guard_some, Option.some.injEq] at h
    obtain ⟨x, h1, _, h2, _, h3, _, h4, rfl⟩ := h
    exact ⟨rfl, rfl⟩
  | submapFromProto id =>
    simp only [runItem, Option.bind_eq_bind, Option.bind_eq_some_iff, Option.some.injEq] at h
    obtain ⟨submaps, h1, opt, h2, rfl⟩ := h
    exact ⟨rfl, rfl⟩
  | nodeFromProto id =>
    simp only [runItem, Option.bind_eq_bind, Option.bind_eq_some_iff, Option.some.injEq] at h
    obtain ⟨_, h1, opt, h2, rfl⟩ := h
    exact ⟨rfl, rfl⟩
  | nodeToSubmap node id =>
    simp only [runItem] at h
    split at h
    · simp only [Option.bind_eq_bind, Option.bind_eq_some_iff, Option.some.injEq] at h
      obtain ⟨sm, h3, submaps, h6, rfl⟩ := h
      exact ⟨rfl, rfl⟩
    · cases h
  | serialized cs => exact sameT_q (addSerializedAll_same h)
  | addTrimmer tr =>
    simp only [runItem, Option.some.injEq] at h
    subst h
    exact ⟨rfl, rfl⟩

theorem deleteTrajectories_q : ∀ {ts : List Int} {s s' : State P}, deleteTrajectories s ts = some s' → SameQ s s' := by
  intro ts
  induction ts with
  | nil => intro s s' h; obtain rfl := Option.some.inj h; exact ⟨rfl, rfl⟩
  | cons t ts ih =>
    intro s s' h
    simp only [deleteTrajectories, Option.bind_eq_bind, Option.bind_eq_some_iff] at h
    obtain ⟨s1, h1, h2⟩ := h
    have i1 := ih h2
    unfold deleteIfNeeded at h1
    split at h1
    · simp only [Option.bind_eq_bind, Option.bind_eq_some_iff, Option.some.injEq] at h1
      obtain ⟨s2, h3, rfl⟩ := h1
      have i2 := sameT_q (trimSubmaps_same h3)
      exact ⟨i1.1.trans i2.1, i1.2.trans i2.2⟩
    · obtain rfl := Option.some.inj h1
      exact i1

theorem runTrimmers_q : ∀ {trs : List Trimmer} {s s' : State P} {cs : List (List Id)} {trs' : List Trimmer}, runTrimmers s trs cs = some (s', trs') → SameQ s s' := by
  intro trs
  induction trs with
  | nil =>
    intro s s' cs trs' h
    simp only [runTrimmers, Option.some.injEq, Prod.mk.injEq] at h
    obtain ⟨rfl, rfl⟩ := h
    exact ⟨rfl, rfl⟩
  | cons tr trs ih =>
    intro s s' cs trs' h
    simp only [runTrimmers, Option.bind_eq_bind, Option.bind_eq_some_iff] at h
    obtain ⟨⟨s1, tr1⟩, h1, ⟨s2, trs2⟩, h2, h3⟩ := h
    simp only [Option.some.injEq, Prod.mk.injEq] at h3
    obtain ⟨rfl, rfl⟩ := h3
    have i1 := ih h2
    have i2 : SameQ s s1 := by
      cases tr with
      | pureLocalization t keep done =>
        obtain ⟨keep', s3, _, h4, h5⟩ := pureLocalizationTrim_inv h1
        have i3 := sameT_q (trimSubmaps_same h4)
        rcases h5 with ⟨_, rfl, rfl⟩ | ⟨_, rfl, rfl⟩
        · exact ⟨i3.1, i3.2⟩
        · exact i3
      | other =>
        simp only [runTrimmer, Option.bind_eq_bind, Option.bind_eq_some_iff, Option.some.injEq, Prod.mk.injEq] at h1
        obtain ⟨s3, h4, rfl, rfl⟩ := h1
        exact sameT_q (trimSubmaps_same h4)
    exact ⟨i1.1.trans i2.1, i1.2.trans i2.2⟩

theorem filter_eraseIdx_false {α : Type} {q : α → Bool} : ∀ {l : List α} {k : Nat} {x : α}, l[k]? = some x → q x = false → (l.eraseIdx k).filter q = l.filter q := by
  intro l
  induction l with
  | nil => intro k x h; simp at h
  | cons y l ih =>
    intro k x h hx
    cases k with
    | zero =>
      simp only [List.getElem?_cons_zero, Option.some.injEq] at h
      subst h
      simp [hx]
    | succ k =>
      simp only [List.getElem?_cons_succ] at h
      simp only [List.eraseIdx_cons_succ, List.filter_cons, ih h hx]

theorem filter_eraseIdx_one {α : Type} {q : α → Bool} : ∀ {l : List α} {k : Nat} {x : α}, l[k]? = some x → q x = true → (l.filter q).length ≤ 1 → (l.eraseIdx k).filter q = [] ∧ l.filter q = [x] := by
  intro l
  induction l with
  | nil => intro k x h; simp at h
  | cons y l ih =>
    intro k x h hx h1
    cases k with
    | zero =>
      simp only [List.getElem?_cons_zero, Option.some.injEq] at h
      subst h
      simp only [List.filter_cons, hx, if_true, List.length_cons] at h1
      have : l.filter q = [] := List.eq_nil_of_length_eq_zero (by omega)
      simp [hx, this]
    | succ k =>
      simp only [List.getElem?_cons_succ] at h
      have hm : x ∈ l.filter q := List.mem_filter.2 ⟨List.mem_of_getElem? h, hx⟩
      have hp := List.length_pos_of_mem hm
      rw [List.filter_cons] at h1
      split at h1
      · simp only [List.length_cons] at h1; omega
      · rename_i hy
        obtain ⟨i1, i2⟩ := ih h hx h1
        simp only [List.eraseIdx_cons_succ, List.filter_cons, hy, if_false]
        exact ⟨by simpa using i1, by simpa using i2⟩

/-- The items of the load that have not run, in the order in which they will. -/
def waiting (mine : Int → Bool) (s : State P) : List (Item P) := (s.queue ++ s.inflight).filter (ownItem mine)

/-- Other steps do not change which items of the load wait. -/
theorem other_waiting {s s' : State P} {b : Act P} (wf : Wf s) (h1 : (s.inflight.filter (ownItem mine)).length ≤ 1) (he : Enabled s b) (ho : Elsewhere mine b) (h : exec s b = some s')
    (hr : ∀ poses, b = .run poses → ∀ i q, s.queue = i :: q → ownItem mine i = false) : waiting mine s' = waiting mine s ∧ (s'.inflight.filter (ownItem mine)).length ≤ 1 := by
  have post : ∀ i : Item P, otherItem mine i = true → ∀ s' : State P, s'.queue = s.queue → s'.inflight = s.inflight ++ [i] →
      waiting mine s' = waiting mine s ∧ (s'.inflight.filter (ownItem mine)).length ≤ 1 := by
    intro i hi s' hq hf
    unfold waiting
    rw [hq, hf, ← List.append_assoc, List.filter_append (_ ++ _), List.filter_append s.inflight]
    simp only [List.filter_cons, List.filter_nil, other_not_own hi, Bool.false_eq_true, if_false, List.append_nil]
    exact ⟨trivial, h1⟩
  have same : ∀ s' : State P, SameQ s s' → waiting mine s' = waiting mine s ∧ (s'.inflight.filter (ownItem mine)).length ≤ 1 := by
    intro s' hs
    unfold waiting
    rw [hs.1, hs.2]
    exact ⟨rfl, h1⟩
  cases b with
  | addNode t ins nf =>
    have ht : mine t = false := ho
    obtain ⟨s1, id, h2, rfl⟩ := addNode_inv h
    obtain ⟨trajs, nodes, h0, h3, h4⟩ := appendNode_inv h2
    have hid := (MapById.append_spec wf.nodes h3).2.1
    have hi : otherItem mine (Item.computeConstraints id ins nf : Item P) = true := by simp [otherItem, hid, ht]
    rcases h4 with rfl | ⟨back, submaps, id', _, rfl⟩ <;> exact post _ hi _ rfl rfl
  | addSubmapFromProto id ptr =>
    have ht : mine id.1 = false := ho
    obtain ⟨trajs, submaps, _, _, rfl⟩ := addSubmapFromProto_inv h
    exact post (.submapFromProto id) (by simp [otherItem, ht]) _ rfl rfl
  | addNodeFromProto id =>
    have ht : mine id.1 = false := ho
    obtain ⟨trajs, submaps, _, _, rfl⟩ := addNodeFromProto_inv h
    exact post (.nodeFromProto id) (by simp [otherItem, ht]) _ rfl rfl
  | deleteTrajectory t =>
    have ht : mine t = false := ho
    simp only [exec, Option.some.injEq] at h
    subst h
    unfold deleteTrajectory
    cases hx : SMap.get? t s.trajs with
    | none => exact same _ ⟨rfl, rfl⟩
    | some x => exact post (.delete t) (by simp [otherItem, ht]) _ rfl rfl
  | post item =>
    simp only [exec, Option.some.injEq] at h
    subst h
    exact post item ho _ rfl rfl
  | enqueue k =>
    simp only [exec] at h
    split at h
    · cases h
    · rename_i item hk
      obtain rfl := Option.some.inj h
      unfold waiting
      simp only [List.filter_append]
      cases hi : ownItem mine item with
      | false =>
        rw [filter_eraseIdx_false hk hi]
        exact ⟨by simp [hi], h1⟩
      | true =>
        obtain ⟨i1, i2⟩ := filter_eraseIdx_one hk hi h1
        rw [i1, i2]
        exact ⟨by simp [hi], by simp⟩
  | run poses =>
    simp only [exec] at h
    split at h
    · cases h
    · rename_i item queue hq
      have hs := runItem_q (s := { s with queue := queue }) ⟨wf.1, wf.2, wf.3, wf.4⟩ h
      unfold waiting
      rw [hs.1, hs.2, hq]
      refine ⟨?_, h1⟩
      rw [List.cons_append, List.filter_cons, hr poses rfl item queue hq]
      simp
  | search how =>
    obtain ⟨⟨node, id⟩, todo, hw⟩ := he
    simp only [exec, hw] at h
    have := computeConstraint_same h
    exact same _ ⟨this.queue, this.inflight⟩
  | endSearch =>
    simp only [exec, Option.some.injEq] at h
    subst h
    exact same _ ⟨rfl, rfl⟩
  | optimize result =>
    simp only [exec, optimize] at h
    split at h
    · obtain rfl := Option.some.inj h
      exact same _ ⟨rfl, rfl⟩
    · cases h
  | trim choices =>
    obtain ⟨r, hw⟩ := he
    simp only [exec, hw] at h
    obtain ⟨s1, s2, trs, -, h2, h3, rfl⟩ := handleTrimming_inv h
    have i1 := deleteTrajectories_q h2
    have i2 := runTrimmers_q h3
    exact same _ ⟨i2.1.trans i1.1, i2.2.trans i1.2⟩

/-! ### The invariant -/

/-- The state of the trajectories being loaded after the calls `made` of which the items `done` have run. -/
structure Inv (mine : Int → Bool) (made : List (Act P)) (done : List (Item P)) (s : State P) : Prop where
  wf : Wf s
  apart : Apart mine s
  queue : done ++ waiting mine s = items mine made
  one : (s.inflight.filter (ownItem mine)).length ≤ 1
  known : ∀ t, mine t = true → ∀ st, SMap.get? t s.trajs = some st → st.deletion = .normal ∧ (st.state = .active ∨ st.state = .frozen)
  frozen : ∀ t, mine t = true → (isFrozen s.trajs t = true ↔ t ∈ done.flatMap frozenOf)
  subs : ∀ id : Id, mine id.1 = true → ((at? s.submaps id).isSome ↔ id ∈ (made.map itemOf).flatMap subsOf)
  ptr : ∀ (id : Id) sm, mine id.1 = true → at? s.submaps id = some sm → Act.addSubmapFromProto id sm.ptr ∈ made
  fin : ∀ (id : Id) sm, mine id.1 = true → at? s.submaps id = some sm → (sm.finished = true ↔ id ∈ done.flatMap subsOf)
  mem : ∀ (id : Id) sm, mine id.1 = true → at? s.submaps id = some sm → ∀ n, n ∈ sm.nodeIds ↔ (n, id) ∈ done.flatMap membersOf
  nodes : ∀ id : Id, mine id.1 = true → ((at? s.nodes id).isSome ↔ id ∈ (made.map itemOf).flatMap nodesOf)
  optSubmaps : ∀ id : Id, mine id.1 = true → ((at? s.optSubmaps id).isSome ↔ id ∈ done.flatMap subsOf)
  optNodes : ∀ id : Id, mine id.1 = true → ((at? s.optNodes id).isSome ↔ id ∈ done.flatMap nodesOf)
  cons : s.constraints.filter (inner mine) = done.flatMap consOf

/-- Other steps keep the invariant. -/
theorem Inv.other {made : List (Act P)} {done : List (Item P)} {s s' : State P} {b : Act P} (i : Inv mine made done s) (wf' : Wf s') (he : Enabled s b) (ho : Calm mine s b) (h : exec s b = some s')
    (hr : ∀ poses, b = .run poses → ∀ i q, s.queue = i :: q → otherItem mine i = true) (hw : Elsewhere mine b) : Inv mine made done s' := by
  obtain ⟨f, a⟩ := step_frame i.wf i.apart he ho h hr
  obtain ⟨w1, w2⟩ := other_waiting i.wf i.one he hw h fun p e i q hq => other_not_own (hr p e i q hq)
  refine ⟨wf', a, by rw [w1]; exact i.queue, w2, ?_, ?_, ?_, ?_, ?_, ?_, ?_, ?_, ?_, ?_⟩
  · intro t ht; rw [f.trajs t ht]; exact i.known t ht
  · intro t ht
    unfold isFrozen
    rw [f.trajs t ht]
    exact i.frozen t ht
  · intro id hi; rw [f.submaps id hi]; exact i.subs id hi
  · intro id sm hi; rw [f.submaps id hi]; exact i.ptr id sm hi
  · intro id sm hi; rw [f.submaps id hi]; exact i.fin id sm hi
  · intro id sm hi; rw [f.submaps id hi]; exact i.mem id sm hi
  · intro id hi; rw [f.nodes id hi]; exact i.nodes id hi
  · intro id hi; rw [f.optSubmaps id hi]; exact i.optSubmaps id hi
  · intro id hi; rw [f.optNodes id hi]; exact i.optNodes id hi
  · rw [f.constraints]; exact i.cons

/-! ### Calls of the load -/

theorem known_ok {l : List (Int × TrajState)} {t : Int} (h : ∀ st, SMap.get? t l = some st → st.deletion = .normal ∧ (st.state = .active ∨ st.state = .frozen)) :
    canModify l t = true ∧ (trajOf l t).deletion = .normal ∧ ((trajOf l t).state = .active ∨ (trajOf l t).state = .frozen) := by
  unfold canModify trajOf
  cases hg : SMap.get? t l with
  | none => exact ⟨rfl, rfl, Or.inl rfl⟩
  | some st =>
    obtain ⟨h1, h2⟩ := h st hg
    refine ⟨?_, h1, h2⟩
    rcases h2 with h2 | h2 <;> simp [h1, h2]

/-- The trajectory is there after the call; nothing else changes. -/
theorem addIfNeeded_ok {l : List (Int × TrajState)} {t : Int} (h : ∀ st, SMap.get? t l = some st → st.deletion = .normal ∧ (st.state = .active ∨ st.state = .frozen)) :
    addTrajectoryIfNeeded l t = some (SMap.put t (trajOf l t) l) ∧ canModify (SMap.put t (trajOf l t) l) t = true ∧
      (∀ t' st, (∀ st, SMap.get? t' l = some st → st.deletion = .normal ∧ (st.state = .active ∨ st.state = .frozen)) → SMap.get? t' (SMap.put t (trajOf l t) l) = some st →
        st.deletion = .normal ∧ (st.state = .active ∨ st.state = .frozen)) ∧
      (∀ t', isFrozen (SMap.put t (trajOf l t) l) t' = isFrozen l t') ∧ (∀ t', trajOf (SMap.put t (trajOf l t) l) t' = trajOf l t') := by
  obtain ⟨_, h2, h3⟩ := known_ok h
  have hk : ∀ t' st, (∀ st, SMap.get? t' l = some st → st.deletion = .normal ∧ (st.state = .active ∨ st.state = .frozen)) → SMap.get? t' (SMap.put t (trajOf l t) l) = some st →
        st.deletion = .normal ∧ (st.state = .active ∨ st.state = .frozen) := by
    intro t' st hs hg
    rw [SMap.get?_put] at hg
    split at hg
    · cases hg; exact ⟨h2, h3⟩
    · exact hs st hg
  refine ⟨?_, ?_, hk, ?_, ?_⟩
  · unfold addTrajectoryIfNeeded
    rcases h3 with h3 | h3 <;> simp [h2, h3]
  · exact (known_ok (fun st hg => hk t st h hg)).1
  · intro t'
    unfold isFrozen
    rw [SMap.get?_put]
    split
    · rename_i he
      subst he
      unfold trajOf
      cases hg : SMap.get? t l <;> simp
    · rfl
  · intro t'
    conv_lhs => unfold trajOf
    rw [SMap.get?_put]
    split
    · rename_i he
      subst he
      rfl
    · rfl

theorem one_of_none {s : State P} {i : Item P} (h : ∀ i ∈ s.inflight, ownItem mine i = false) : ((s.inflight ++ [i]).filter (ownItem mine)).length ≤ 1 := by
  rw [List.filter_append, List.filter_eq_nil_iff.2 (fun x hx => by simp [h x hx])]
  simp only [List.nil_append]
  exact List.length_filter_le _ _

theorem queue_call {made : List (Act P)} {done : List (Item P)} {s s' : State P} {a : Act P} (i : Inv mine made done s) (hq : s'.queue = s.queue) (hf : s'.inflight = s.inflight ++ [itemOf a]) :
    done ++ waiting mine s' = items mine (made ++ [a]) := by
  rw [items_append, ← i.queue]
  unfold waiting items
  rw [hq, hf]
  simp

/-- **Calls of the load do not abort**, and keep the invariant. -/
theorem Inv.call {made : List (Act P)} {done : List (Item P)} {s : State P} {a : Act P} (i : Inv mine made done s) (g : Good mine made) (r : Ready mine (made.map itemOf) a)
    (hf : ∀ i ∈ s.inflight, ownItem mine i = false) : Enabled s a ∧ ∃ s', exec s a = some s' ∧ Inv mine (made ++ [a]) done s' := by
  have hown := ready_own g r
  have hap : ∀ x ∈ s.inflight ++ [itemOf a], ownItem mine x = true ∨ otherItem mine x = true := by
    refine append_apart i.apart ?_
    rcases hown with h | rfl
    · exact Or.inl h
    · exact Or.inr rfl
  have hmap : (made ++ [a]).map itemOf = made.map itemOf ++ [itemOf a] := by simp
  cases a with
  | addSubmapFromProto id ptr =>
    obtain ⟨r1, r2, r3, r4⟩ := r
    obtain ⟨k1, k2, k3, k4, k5⟩ := addIfNeeded_ok (i.known id.1 r1)
    have hn : at? s.submaps id = none := by
      rw [← i.subs id r1] at r4
      simpa using r4
    obtain ⟨m, hm⟩ := Serialization.insert_some (d := ({ ptr := ptr } : Submap)) r2 r3 hn
    obtain ⟨w, _, q⟩ := MapById.insert_spec i.wf.submaps hm
    refine ⟨trivial, { s with trajs := SMap.put id.1 (trajOf s.trajs id.1) s.trajs, submaps := m, inflight := s.inflight ++ [.submapFromProto id] }, ?_, ?_⟩
    · simp only [exec, addSubmapFromProto, k1, Option.bind_eq_bind, Option.bind_some]
      rw [show (guard (canModify (SMap.put id.1 (trajOf s.trajs id.1) s.trajs) id.1 = true) : Option Unit) = some () from guard_some.2 k2]
      simp only [Option.bind_some, hm]
    · have cases_at : ∀ (x : Id) sm, at? m x = some sm → (x = id ∧ sm = { ptr := ptr }) ∨ (x ≠ id ∧ at? s.submaps x = some sm) := by
        intro x sm hx
        rw [q] at hx
        split at hx
        · rename_i he; exact Or.inl ⟨he.symm, (Option.some.inj hx).symm⟩
        · rename_i he; exact Or.inr ⟨fun h => he h.symm, hx⟩
      refine ⟨⟨w, i.wf.2, i.wf.3, i.wf.4⟩, ⟨i.apart.queue, hap, i.apart.trimmers, ?_, i.apart.searches, i.apart.todo, ?_⟩, queue_call i rfl rfl, one_of_none hf, ?_, ?_, ?_, ?_, ?_, ?_, ?_, i.optSubmaps, i.optNodes, i.cons⟩
      · intro x sm hx n hn
        rcases cases_at x sm hx with ⟨_, rfl⟩ | ⟨_, h⟩
        · cases hn
        · exact i.apart.members x sm h n hn
      · intro t ht
        dsimp only
        rw [k5]
        exact i.apart.deletion t ht
      · intro t ht st hs
        exact k3 t st (i.known t ht) hs
      · intro t ht
        dsimp only
        rw [k4]
        exact i.frozen t ht
      · intro x hx
        dsimp only
        rw [hmap, List.flatMap_append, List.mem_append, ← i.subs x hx, q]
        by_cases he : id = x
        · subst he; simp [itemOf, subsOf]
        · rw [if_neg he]; simp [itemOf, subsOf, Ne.symm he]
      · intro x sm hx hs
        rcases cases_at x sm hs with ⟨rfl, rfl⟩ | ⟨_, h⟩
        · simp
        · exact List.mem_append_left _ (i.ptr x sm hx h)
      · intro x sm hx hs
        rcases cases_at x sm hs with ⟨rfl, rfl⟩ | ⟨_, h⟩
        · simp only [Bool.false_eq_true, false_iff]
          intro hd
          apply r4
          rw [← flat_items (f := subsOf) rfl g, ← i.queue, List.flatMap_append]
          exact List.mem_append_left _ hd
        · exact i.fin x sm hx h
      · intro x sm hx hs n
        rcases cases_at x sm hs with ⟨rfl, rfl⟩ | ⟨_, h⟩
        · simp only [List.not_mem_nil, false_iff]
          intro hd
          apply r4
          -- a member of a submap was called after its submap
          have : (n, x) ∈ (made.map itemOf).flatMap membersOf := by
            rw [← flat_items (f := membersOf) rfl g, ← i.queue, List.flatMap_append]
            exact List.mem_append_left _ hd
          exact members_subs g this
        · exact i.mem x sm hx h n
      · intro x hx
        dsimp only
        rw [hmap, List.flatMap_append, List.mem_append, ← i.nodes x hx]
        simp [itemOf, nodesOf]
  | addNodeFromProto id =>
    obtain ⟨r1, r2, r3, r4⟩ := r
    obtain ⟨k1, k2, k3, k4, k5⟩ := addIfNeeded_ok (i.known id.1 r1)
    have hn : at? s.nodes id = none := by
      rw [← i.nodes id r1] at r4
      simpa using r4
    obtain ⟨m, hm⟩ := Serialization.insert_some (d := ()) r2 r3 hn
    obtain ⟨w, _, q⟩ := MapById.insert_spec i.wf.nodes hm
    refine ⟨trivial, { s with trajs := SMap.put id.1 (trajOf s.trajs id.1) s.trajs, nodes := m, inflight := s.inflight ++ [.nodeFromProto id] }, ?_, ?_⟩
    · simp only [exec, addNodeFromProto, k1, Option.bind_eq_bind, Option.bind_some]
      rw [show (guard (canModify (SMap.put id.1 (trajOf s.trajs id.1) s.trajs) id.1 = true) : Option Unit) = some () from guard_some.2 k2]
      simp only [Option.bind_some, hm]
    · refine ⟨⟨i.wf.1, w, i.wf.3, i.wf.4⟩, ⟨i.apart.queue, hap, i.apart.trimmers, i.apart.members, i.apart.searches, i.apart.todo, ?_⟩, queue_call i rfl rfl, one_of_none hf, ?_, ?_, ?_, ?_, i.fin, i.mem, ?_, i.optSubmaps, i.optNodes, i.cons⟩
      · intro t ht
        dsimp only
        rw [k5]
        exact i.apart.deletion t ht
      · intro t ht st hs
        exact k3 t st (i.known t ht) hs
      · intro t ht
        dsimp only
        rw [k4]
        exact i.frozen t ht
      · intro x hx
        dsimp only
        rw [hmap, List.flatMap_append, List.mem_append, ← i.subs x hx]
        simp [itemOf, subsOf]
      · intro x sm hx hs
        exact List.mem_append_left _ (i.ptr x sm hx hs)
      · intro x hx
        dsimp only
        rw [hmap, List.flatMap_append, List.mem_append, ← i.nodes x hx, q]
        by_cases he : id = x
        · subst he; simp [itemOf, nodesOf]
        · rw [if_neg he]; simp [itemOf, nodesOf, Ne.symm he]
  | post item =>
    have hfree : item.free = true ∧ subsOf item = [] ∧ nodesOf item = [] := by
      cases item <;> first | exact r.elim | exact ⟨rfl, rfl, rfl⟩
    refine ⟨hfree.1, { s with inflight := s.inflight ++ [item] }, rfl, ?_⟩
    refine ⟨⟨i.wf.1, i.wf.2, i.wf.3, i.wf.4⟩, ⟨i.apart.queue, hap, i.apart.trimmers, i.apart.members, i.apart.searches, i.apart.todo, i.apart.deletion⟩, queue_call i rfl rfl, one_of_none hf, i.known, i.frozen, ?_, ?_, i.fin, i.mem, ?_, i.optSubmaps, i.optNodes, i.cons⟩
    · intro x hx
      dsimp only
      rw [hmap, List.flatMap_append, List.mem_append, ← i.subs x hx]
      simp [itemOf, hfree.2.1]
    · intro x sm hx hs
      exact List.mem_append_left _ (i.ptr x sm hx hs)
    · intro x hx
      dsimp only
      rw [hmap, List.flatMap_append, List.mem_append, ← i.nodes x hx]
      simp [itemOf, hfree.2.2]
  | _ => exact r.elim

/-! ### Items of the load -/

theorem assign_some {D : Type} {m : Map D} {id : Id} {d : D} (h : (at? m id).isSome) : ∃ m', MapById.assign m id d = some m' := by
  unfold at? at h
  unfold MapById.assign
  cases h1 : SMap.get? id.1 m with
  | none => rw [h1] at h; cases h
  | some tr =>
    rw [h1] at h
    simp only [Option.bind_some] at h
    cases h2 : SMap.get? id.2 tr.data with
    | none => rw [h2] at h; cases h
    | some v => simp [h2]

/-- Serialized constraints between submaps and nodes that are there, no node being in the submap already. -/
theorem addSerializedAll_ok {cs : List (Constraint P)} : ∀ {s : State P}, Wf s → Apart mine s → (∀ c ∈ cs, (at? s.nodes c.node).isSome ∧ (at? s.submaps c.submap).isSome ∧ mine c.node.1 = mine c.submap.1) →
    (pairs cs).Nodup → (∀ n i, (n, i) ∈ pairs cs → ∀ sm, at? s.submaps i = some sm → n ∉ sm.nodeIds) →
    ∃ m, addSerializedAll s cs = some { s with submaps := m, constraints := s.constraints ++ cs } ∧ Wf { s with submaps := m, constraints := s.constraints ++ cs } ∧
      Apart mine { s with submaps := m, constraints := s.constraints ++ cs } ∧ (∀ id, (at? m id).isSome ↔ (at? s.submaps id).isSome) ∧
      ∀ id sm, at? m id = some sm → ∃ sm0, at? s.submaps id = some sm0 ∧ sm.ptr = sm0.ptr ∧ sm.finished = sm0.finished ∧ ∀ n, n ∈ sm.nodeIds ↔ n ∈ sm0.nodeIds ∨ (n, id) ∈ pairs cs := by
  induction cs with
  | nil =>
    intro s wf ap _ _ _
    refine ⟨s.submaps, by simp [addSerializedAll], ⟨wf.1, wf.2, wf.3, wf.4⟩, ⟨ap.1, ap.2, ap.3, ap.4, ap.5, ap.6, ap.7⟩, fun _ => Iff.rfl, ?_⟩
    intro id sm h
    exact ⟨sm, h, rfl, rfl, fun n => by simp [pairs]⟩
  | cons c cs ih =>
    intro s wf ap hc hp hm
    obtain ⟨c1, c2, c3⟩ := hc c List.mem_cons_self
    obtain ⟨sm, hsm⟩ := Option.isSome_iff_exists.1 c2
    have hpairs : pairs (c :: cs) = (if c.intra = true then [(c.node, c.submap)] else []) ++ pairs cs := by
      unfold pairs
      rw [List.filter_cons]
      split <;> rfl
    have key : ∃ m, addSerialized s c = some { s with submaps := m, constraints := s.constraints ++ [c] } ∧ (∀ id, (at? m id).isSome ↔ (at? s.submaps id).isSome) ∧
        ∀ id sm, at? m id = some sm → ∃ sm0, at? s.submaps id = some sm0 ∧ sm.ptr = sm0.ptr ∧ sm.finished = sm0.finished ∧ ∀ n, n ∈ sm.nodeIds ↔ n ∈ sm0.nodeIds ∨ (c.intra = true ∧ n = c.node ∧ id = c.submap) := by
      have g1 : (guard (MapById.contains s.nodes c.node = true) : Option Unit) = some () := guard_some.2 (contains_iff.2 c1)
      have g2 : (guard (MapById.contains s.submaps c.submap = true) : Option Unit) = some () := guard_some.2 (contains_iff.2 c2)
      cases hi : c.intra with
      | false =>
        refine ⟨s.submaps, ?_, fun _ => Iff.rfl, fun id sm h => ⟨sm, h, rfl, rfl, fun n => by simp⟩⟩
        simp only [addSerialized, Option.bind_eq_bind, g1, g2, Option.bind_some, hsm, hi, Bool.false_eq_true, if_false]
      | true =>
        obtain ⟨m, hm'⟩ := assign_some (d := { sm with nodeIds := setInsert c.node sm.nodeIds }) c2
        have hnot : c.node ∉ sm.nodeIds := hm c.node c.submap (by rw [hpairs, hi]; simp) sm hsm
        have g3 : (guard (c.node ∉ sm.nodeIds) : Option Unit) = some () := guard_some.2 hnot
        obtain ⟨_, _, q⟩ := MapById.assign_spec wf.submaps hm'
        refine ⟨m, ?_, ?_, ?_⟩
        · simp only [addSerialized, Option.bind_eq_bind, g1, g2, Option.bind_some, hsm, hi, if_true, g3, hm']
        · intro id
          rw [q]
          split
          · rename_i he; subst he; simp [c2]
          · rfl
        · intro id sm' h
          rw [q] at h
          split at h
          · rename_i he
            subst he
            cases h
            refine ⟨sm, hsm, rfl, rfl, fun n => ?_⟩
            simp only [setInsert_mem, true_and, and_true]
            tauto
          · rename_i he
            exact ⟨sm', h, rfl, rfl, fun n => by simp [Ne.symm he]⟩
    obtain ⟨m1, k1, k2, k3⟩ := key
    obtain ⟨a1, w1⟩ := addSerialized_apart wf ap c3 k1
    rw [hpairs] at hp
    obtain ⟨m2, e1, e2, e3, e4, e5⟩ := ih w1 a1 (fun c' hc' => by
        obtain ⟨x1, x2, x3⟩ := hc c' (List.mem_cons_of_mem _ hc')
        exact ⟨x1, (k2 _).2 x2, x3⟩) (List.nodup_append.1 hp).2.1 (by
        intro n j hnj sm' hs hmem
        obtain ⟨sm0, y1, _, _, y4⟩ := k3 j sm' hs
        rcases (y4 n).1 hmem with hx | ⟨hx1, hx2, hx3⟩
        · exact hm n j (by rw [hpairs]; exact List.mem_append_right _ hnj) sm0 y1 hx
        · have := (List.nodup_append.1 hp).2.2 (c.node, c.submap) (by simp [hx1]) (n, j) hnj
          apply this
          rw [hx2, hx3])
    refine ⟨m2, ?_, ?_, ?_, ?_, ?_⟩
    · simp only [addSerializedAll, k1, Option.bind_eq_bind, Option.bind_some, e1]
      simp
    · exact ⟨e2.1, e2.2, e2.3, e2.4⟩
    · exact ⟨e3.1, e3.2, e3.3, e3.4, e3.5, e3.6, e3.7⟩
    · intro id
      exact (e4 id).trans (k2 id)
    · intro id sm' h
      obtain ⟨sm1, z1, z2, z3, z4⟩ := e5 id sm' h
      obtain ⟨sm0, y1, y2, y3, y4⟩ := k3 id sm1 z1
      refine ⟨sm0, y1, z2.trans y2, z3.trans y3, fun n => ?_⟩
      rw [z4, y4, hpairs, List.mem_append]
      cases hi : c.intra with
      | false => simp
      | true =>
        simp only [true_and, if_true, List.mem_singleton, Prod.mk.injEq]
        tauto

/-- **Items of the load do not abort**, and keep the invariant. -/
theorem Inv.run {made : List (Act P)} {done : List (Item P)} {s : State P} (i : Inv mine made done s) (g : Good mine made) {item : Item P} {q : List (Item P)} (hq : s.queue = item :: q)
    (ho : ownItem mine item = true) (poses : List P) : ∃ s', exec s (.run poses) = some s' ∧ Inv mine made (done ++ [item]) s' := by
  have hw : waiting mine s = item :: (q ++ s.inflight).filter (ownItem mine) := by
    unfold waiting
    rw [hq, List.cons_append, List.filter_cons, if_pos ho]
  have hqueue : done ++ [item] ++ (q ++ s.inflight).filter (ownItem mine) = items mine made := by
    rw [← i.queue, hw]
    simp
  obtain ⟨pre, a, post, hmade, hitem, hdone⟩ := items_split (by rw [← i.queue, hw] : items mine made = done ++ item :: _)
  have gp : Good mine pre := good_prefix g hmade
  have r : Ready mine (pre.map itemOf) a := g pre a post hmade
  have sub : ∀ {β : Type} (f : Item P → List β) {x : β}, x ∈ (pre.map itemOf).flatMap f → x ∈ (made.map itemOf).flatMap f := by
    intro β f x hx
    rw [hmade, List.map_append, List.flatMap_append]
    exact List.mem_append_left _ hx
  have fd : ∀ {β : Type} (f : Item P → List β), f (.serialized []) = [] → done.flatMap f = (pre.map itemOf).flatMap f := by
    intro β f hf
    rw [← hdone]
    exact flat_items hf gp
  have hex : exec s (.run poses) = runItem { s with queue := q } poses item := by simp only [exec, hq]
  have apq : ∀ x ∈ q, ownItem mine x = true ∨ otherItem mine x = true := fun x hx => i.apart.queue x (by rw [hq]; exact List.mem_cons_of_mem _ hx)
  have a0 : Apart mine { s with queue := q } := ⟨apq, i.apart.inflight, i.apart.trimmers, i.apart.members, i.apart.searches, i.apart.todo, i.apart.deletion⟩
  have w0 : Wf { s with queue := q } := ⟨i.wf.1, i.wf.2, i.wf.3, i.wf.4⟩
  rw [hex]
  have dapp : ∀ {β : Type} (f : Item P → List β), (done ++ [item]).flatMap f = done.flatMap f ++ f item := by
    intro β f
    simp
  cases item with
  | freeze t =>
    have ht : mine t = true := ho
    have hnot : isFrozen s.trajs t = false := by
      cases hb : isFrozen s.trajs t with
      | false => rfl
      | true =>
        exfalso
        have h1 := (i.frozen t ht).1 hb
        rw [fd frozenOf rfl] at h1
        cases a with
        | post j => simp only [itemOf] at hitem; subst hitem; exact r.2 h1
        | _ => cases hitem
    refine ⟨{ s with queue := q, trajs := setTraj s.trajs t .frozen }, ?_, ?_⟩
    · simp only [runItem, Option.bind_eq_bind]
      rw [show (guard (isFrozen s.trajs t = false) : Option Unit) = some () from guard_some.2 hnot]
      rfl
    · obtain ⟨_, k2, _⟩ := known_ok (i.known t ht)
      refine ⟨⟨i.wf.1, i.wf.2, i.wf.3, i.wf.4⟩, ⟨apq, i.apart.inflight, i.apart.trimmers, i.apart.members, i.apart.searches, i.apart.todo, ?_⟩, hqueue, i.one, ?_, ?_, i.subs, i.ptr, ?_, ?_, i.nodes, ?_, ?_, ?_⟩
      · intro t' ht'
        simp only [setTraj]
        conv_lhs => unfold trajOf
        rw [SMap.get?_put]
        split
        · exact k2
        · exact i.apart.deletion t' ht'
      · intro t' ht' st hs
        simp only [setTraj] at hs
        rw [SMap.get?_put] at hs
        split at hs
        · cases hs; exact ⟨k2, Or.inr rfl⟩
        · exact i.known t' ht' st hs
      · intro t' ht'
        rw [dapp, List.mem_append, ← i.frozen t' ht']
        simp only [setTraj, frozenOf, List.mem_singleton]
        unfold isFrozen
        rw [SMap.get?_put]
        by_cases he : t = t'
        · subst he; simp
        · rw [if_neg he]; simp [Ne.symm he]
      · intro x sm hx hs; rw [dapp]; simpa [subsOf] using i.fin x sm hx hs
      · intro x sm hx hs n; rw [dapp]; simpa [membersOf] using i.mem x sm hx hs n
      · intro x hx; rw [dapp]; simpa [subsOf] using i.optSubmaps x hx
      · intro x hx; rw [dapp]; simpa [nodesOf] using i.optNodes x hx
      · rw [dapp]; simpa [consOf] using i.cons
  | data t =>
    have ht : mine t = true := ho
    refine ⟨{ s with queue := q }, ?_, ?_⟩
    · simp only [runItem]
      rw [if_pos (known_ok (i.known t ht)).1]
    · refine ⟨w0, a0, hqueue, i.one, i.known, ?_, i.subs, i.ptr, ?_, ?_, i.nodes, ?_, ?_, ?_⟩
      · intro t' ht'; rw [dapp]; simpa [frozenOf] using i.frozen t' ht'
      · intro x sm hx hs; rw [dapp]; simpa [subsOf] using i.fin x sm hx hs
      · intro x sm hx hs n; rw [dapp]; simpa [membersOf] using i.mem x sm hx hs n
      · intro x hx; rw [dapp]; simpa [subsOf] using i.optSubmaps x hx
      · intro x hx; rw [dapp]; simpa [nodesOf] using i.optNodes x hx
      · rw [dapp]; simpa [consOf] using i.cons
  | submapFromProto id =>
    have ht : mine id.1 = true := ho
    obtain ⟨ptr, rfl⟩ : ∃ ptr, a = .addSubmapFromProto id ptr := by
      cases a with
      | addSubmapFromProto j ptr => simp only [itemOf] at hitem; cases hitem; exact ⟨ptr, rfl⟩
      | post j => simp only [itemOf] at hitem; subst hitem; exact r.elim
      | _ => cases hitem
    obtain ⟨r1, r2, r3, r4⟩ := r
    have hsome : (at? s.submaps id).isSome := (i.subs id ht).2 (by rw [hmade]; simp [itemOf, subsOf])
    obtain ⟨sm, hsm⟩ := Option.isSome_iff_exists.1 hsome
    obtain ⟨m, hm⟩ := assign_some (d := { sm with finished := true }) hsome
    have hmf : markFinished s.submaps id = some m := by simp only [markFinished, hsm, Option.bind_eq_bind, Option.bind_some, hm]
    have hno : at? s.optSubmaps id = none := by
      rw [← fd subsOf rfl, ← i.optSubmaps id ht] at r4
      simpa using r4
    obtain ⟨o, ho'⟩ := Serialization.insert_some (d := ()) r2 r3 hno
    obtain ⟨w, _, qa⟩ := MapById.assign_spec i.wf.submaps hm
    obtain ⟨wo, _, qo⟩ := MapById.insert_spec i.wf.optSubmaps ho'
    have ca : ∀ (x : Id) sm', at? m x = some sm' → (x = id ∧ sm' = { sm with finished := true }) ∨ (x ≠ id ∧ at? s.submaps x = some sm') := by
      intro x sm' hx
      rw [qa] at hx
      split at hx
      · rename_i he; exact Or.inl ⟨he.symm, (Option.some.inj hx).symm⟩
      · rename_i he; exact Or.inr ⟨fun h => he h.symm, hx⟩
    refine ⟨{ s with queue := q, submaps := m, optSubmaps := o }, ?_, ?_⟩
    · simp only [runItem, Option.bind_eq_bind, hmf, Option.bind_some, ho']
    · refine ⟨⟨w, i.wf.2, wo, i.wf.4⟩, ⟨apq, i.apart.inflight, i.apart.trimmers, ?_, i.apart.searches, i.apart.todo, i.apart.deletion⟩, hqueue, i.one, i.known, ?_, ?_, ?_, ?_, ?_, i.nodes, ?_, ?_, ?_⟩
      · intro x sm' hx n hn
        rcases ca x sm' hx with ⟨rfl, rfl⟩ | ⟨_, h⟩
        · exact i.apart.members x sm hsm n hn
        · exact i.apart.members x sm' h n hn
      · intro t' ht'; rw [dapp]; simpa [frozenOf] using i.frozen t' ht'
      · intro x hx
        rw [← i.subs x hx]
        dsimp only
        rw [qa]
        split
        · rename_i he; subst he; simp [hsome]
        · rfl
      · intro x sm' hx hs
        rcases ca x sm' hs with ⟨rfl, rfl⟩ | ⟨_, h⟩
        · exact i.ptr x sm hx hsm
        · exact i.ptr x sm' hx h
      · intro x sm' hx hs
        rw [dapp, List.mem_append]
        rcases ca x sm' hs with ⟨rfl, rfl⟩ | ⟨hne, h⟩
        · simp [subsOf]
        · rw [← i.fin x sm' hx h]; simp [subsOf, hne]
      · intro x sm' hx hs n
        rw [dapp]
        rcases ca x sm' hs with ⟨rfl, rfl⟩ | ⟨hne, h⟩
        · simpa [membersOf] using i.mem x sm hx hsm n
        · simpa [membersOf] using i.mem x sm' hx h n
      · intro x hx
        rw [dapp, List.mem_append, ← i.optSubmaps x hx]
        dsimp only
        rw [qo]
        by_cases he : id = x
        · subst he; simp [subsOf]
        · rw [if_neg he]; simp [subsOf, Ne.symm he]
      · intro x hx; rw [dapp]; simpa [nodesOf] using i.optNodes x hx
      · rw [dapp]; simpa [consOf] using i.cons
  | nodeFromProto id =>
    have ht : mine id.1 = true := ho
    obtain rfl : a = .addNodeFromProto id := by
      cases a with
      | addNodeFromProto j => simp only [itemOf] at hitem; cases hitem; rfl
      | post j => simp only [itemOf] at hitem; subst hitem; exact r.elim
      | _ => cases hitem
    obtain ⟨r1, r2, r3, r4⟩ := r
    have hsome : (at? s.nodes id).isSome := (i.nodes id ht).2 (by rw [hmade]; simp [itemOf, nodesOf])
    obtain ⟨u, hu⟩ := Option.isSome_iff_exists.1 hsome
    have hno : at? s.optNodes id = none := by
      rw [← fd nodesOf rfl, ← i.optNodes id ht] at r4
      simpa using r4
    obtain ⟨o, ho'⟩ := Serialization.insert_some (d := ()) r2 r3 hno
    obtain ⟨wo, _, qo⟩ := MapById.insert_spec i.wf.optNodes ho'
    refine ⟨{ s with queue := q, optNodes := o }, ?_, ?_⟩
    · simp only [runItem, Option.bind_eq_bind, hu, Option.bind_some, ho']
    · refine ⟨⟨i.wf.1, i.wf.2, i.wf.3, wo⟩, ⟨apq, i.apart.inflight, i.apart.trimmers, i.apart.members, i.apart.searches, i.apart.todo, i.apart.deletion⟩, hqueue, i.one, i.known, ?_, i.subs, i.ptr, ?_, ?_, i.nodes, ?_, ?_, ?_⟩
      · intro t' ht'; rw [dapp]; simpa [frozenOf] using i.frozen t' ht'
      · intro x sm hx hs; rw [dapp]; simpa [subsOf] using i.fin x sm hx hs
      · intro x sm hx hs n; rw [dapp]; simpa [membersOf] using i.mem x sm hx hs n
      · intro x hx; rw [dapp]; simpa [subsOf] using i.optSubmaps x hx
      · intro x hx
        rw [dapp, List.mem_append, ← i.optNodes x hx]
        dsimp only
        rw [qo]
        by_cases he : id = x
        · subst he; simp [nodesOf]
        · rw [if_neg he]; simp [nodesOf, Ne.symm he]
      · rw [dapp]; simpa [consOf] using i.cons
  | nodeToSubmap node id =>
    have ht : mine node.1 = true ∧ mine id.1 = true := by simpa [ownItem] using ho
    obtain rfl : a = .post (.nodeToSubmap node id) := by
      cases a with
      | post j => simp only [itemOf] at hitem; subst hitem; rfl
      | _ => cases hitem
    have hsome : (at? s.submaps id).isSome := (i.subs id ht.2).2 (sub subsOf r.2)
    obtain ⟨sm, hsm⟩ := Option.isSome_iff_exists.1 hsome
    obtain ⟨m, hm⟩ := assign_some (d := { sm with nodeIds := setInsert node sm.nodeIds }) hsome
    obtain ⟨w, _, qa⟩ := MapById.assign_spec i.wf.submaps hm
    have ca : ∀ (x : Id) sm', at? m x = some sm' → (x = id ∧ sm' = { sm with nodeIds := setInsert node sm.nodeIds }) ∨ (x ≠ id ∧ at? s.submaps x = some sm') := by
      intro x sm' hx
      rw [qa] at hx
      split at hx
      · rename_i he; exact Or.inl ⟨he.symm, (Option.some.inj hx).symm⟩
      · rename_i he; exact Or.inr ⟨fun h => he h.symm, hx⟩
    obtain ⟨a1, w1⟩ := nodeToSubmap_apart w0 a0 (by rw [ht.1, ht.2]) hsm hm
    refine ⟨{ s with queue := q, submaps := m }, ?_, ?_⟩
    · simp only [runItem]
      rw [if_pos (known_ok (i.known id.1 ht.2)).1]
      simp only [Option.bind_eq_bind, hsm, Option.bind_some, hm]
    · refine ⟨w1, a1, hqueue, i.one, i.known, ?_, ?_, ?_, ?_, ?_, i.nodes, ?_, ?_, ?_⟩
      · intro t' ht'; rw [dapp]; simpa [frozenOf] using i.frozen t' ht'
      · intro x hx
        rw [← i.subs x hx]
        dsimp only
        rw [qa]
        split
        · rename_i he; subst he; simp [hsome]
        · rfl
      · intro x sm' hx hs
        rcases ca x sm' hs with ⟨rfl, rfl⟩ | ⟨_, h⟩
        · exact i.ptr x sm hx hsm
        · exact i.ptr x sm' hx h
      · intro x sm' hx hs
        rw [dapp]
        rcases ca x sm' hs with ⟨rfl, rfl⟩ | ⟨hne, h⟩
        · simpa [subsOf] using i.fin x sm hx hsm
        · simpa [subsOf] using i.fin x sm' hx h
      · intro x sm' hx hs n
        rw [dapp, List.mem_append]
        rcases ca x sm' hs with ⟨rfl, rfl⟩ | ⟨hne, h⟩
        · rw [← i.mem x sm hx hsm n]
          simp only [setInsert_mem, membersOf, List.mem_singleton, Prod.mk.injEq, and_true]
          tauto
        · rw [← i.mem x sm' hx h n]; simp [membersOf, hne]
      · intro x hx; rw [dapp]; simpa [subsOf] using i.optSubmaps x hx
      · intro x hx; rw [dapp]; simpa [nodesOf] using i.optNodes x hx
      · rw [dapp]; simpa [consOf] using i.cons
  | serialized cs =>
    have hc : ∀ c ∈ cs, mine c.node.1 = true ∧ mine c.submap.1 = true := by
      simp only [ownItem, Bool.and_eq_true, List.all_eq_true] at ho
      exact ho.2
    obtain rfl : a = .post (.serialized cs) := by
      cases a with
      | post j => simp only [itemOf] at hitem; subst hitem; rfl
      | addSubmapFromProto _ _ => cases hitem
      | addNodeFromProto _ => cases hitem
      | _ => exact r.elim
    obtain ⟨r1, r2, r3⟩ := r
    obtain ⟨m, e1, e2, e3, e4, e5⟩ := addSerializedAll_ok (s := { s with queue := q }) w0 a0 (fun c hcs => by
        obtain ⟨x1, x2⟩ := hc c hcs
        obtain ⟨y1, y2⟩ := r1 c hcs
        exact ⟨(i.nodes _ x1).2 (sub nodesOf y1), (i.subs _ x2).2 (sub subsOf y2), by rw [x1, x2]⟩) r2 (by
        intro n j hnj sm hs hmem
        have hj : mine j.1 = true := by
          simp only [pairs, List.mem_map, List.mem_filter] at hnj
          obtain ⟨c, ⟨hcs, _⟩, he⟩ := hnj
          cases he
          exact (hc c hcs).2
        have := (i.mem j sm hj hs n).1 hmem
        rw [fd membersOf rfl] at this
        exact r3 _ hnj this)
    refine ⟨_, e1, ⟨e2, e3, hqueue, i.one, i.known, ?_, ?_, ?_, ?_, ?_, i.nodes, ?_, ?_, ?_⟩⟩
    · intro t' ht'; rw [dapp]; simpa [frozenOf] using i.frozen t' ht'
    · intro x hx
      rw [← i.subs x hx]
      exact e4 x
    · intro x sm' hx hs
      obtain ⟨sm0, y1, y2, _, _⟩ := e5 x sm' hs
      rw [y2]
      exact i.ptr x sm0 hx y1
    · intro x sm' hx hs
      obtain ⟨sm0, y1, _, y3, _⟩ := e5 x sm' hs
      rw [dapp, y3]
      simpa [subsOf] using i.fin x sm0 hx y1
    · intro x sm' hx hs n
      obtain ⟨sm0, y1, _, _, y4⟩ := e5 x sm' hs
      rw [dapp, List.mem_append, y4, i.mem x sm0 hx y1 n]
      rfl
    · intro x hx; rw [dapp]; simpa [subsOf] using i.optSubmaps x hx
    · intro x hx; rw [dapp]; simpa [nodesOf] using i.optNodes x hx
    · rw [dapp]
      show List.filter _ (_ ++ _) = _
      rw [List.filter_append]
      have : cs.filter (inner mine) = cs := List.filter_eq_self.2 (fun c hcs => by simp [inner, (hc c hcs).1, (hc c hcs).2])
      rw [this]
      congr 1
      exact i.cons
  | _ => cases ho

end Verif.Loading
