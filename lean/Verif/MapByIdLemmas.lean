import Verif.MapById
import Mathlib.Tactic.Ring
import Mathlib.Tactic.Linarith
import Mathlib.Data.List.Induction
import Mathlib.Data.List.TakeWhile

/-! Iterators of `MapById` enumerate the flattened map. -/

namespace Verif.MapById

set_option linter.unusedSectionVars false
set_option linter.unusedSimpArgs false

variable {D : Type}

def tag (t : Int) (x : Int × D) : Id × D := ((t, x.1), x.2)

def flat (m : Map D) : List (Id × D) := m.flatMap (fun e => e.2.data.map (tag e.1))

structure WF (m : Map D) : Prop where
  sorted : SMap.Sorted m
  nonneg : ∀ e ∈ m, 0 ≤ e.1
  nonempty : ∀ e ∈ m, e.2.data ≠ []
  dsorted : ∀ e ∈ m, SMap.Sorted e.2.data
  inonneg : ∀ e ∈ m, ∀ x ∈ e.2.data, 0 ≤ x.1

theorem flat_cons (e : Int × Traj D) (m : Map D) : flat (e :: m) = e.2.data.map (tag e.1) ++ flat m := by
  simp [flat]

theorem flat_append (m m' : Map D) : flat (m ++ m') = flat m ++ flat m' := by simp [flat]

theorem flat_nil : flat ([] : Map D) = [] := rfl

theorem mem_flat {m : Map D} {id : Id} {d : D} :
    (id, d) ∈ flat m ↔ ∃ tr, (id.1, tr) ∈ m ∧ (id.2, d) ∈ tr.data := by
  simp only [flat, List.mem_flatMap, List.mem_map, tag, Prod.exists, Prod.mk.injEq]
  constructor
  · rintro ⟨t, tr, h1, i, d', h2, h3, rfl⟩
    refine ⟨tr, ?_, ?_⟩ <;> rw [← h3] <;> assumption
  · rintro ⟨tr, h1, h2⟩
    exact ⟨id.1, tr, h1, id.2, d, h2, rfl, rfl⟩

theorem at?_iff_mem {m : Map D} (hm : WF m) {id : Id} {d : D} : at? m id = some d ↔ (id, d) ∈ flat m := by
  rw [mem_flat]
  simp only [at?, Option.bind_eq_some_iff]
  constructor
  · rintro ⟨tr, h1, h2⟩
    exact ⟨tr, SMap.mem_of_get? h1, SMap.mem_of_get? h2⟩
  · rintro ⟨tr, h1, h2⟩
    exact ⟨tr, SMap.get?_of_mem hm.sorted h1, SMap.get?_of_mem (hm.dsorted _ h1) h2⟩

theorem flat_sorted {m : Map D} (hm : WF m) : (flat m).Pairwise (fun a b => idLt a.1 b.1) := by
  obtain ⟨hs, -, -, hd, -⟩ := hm
  induction m with
  | nil => exact List.Pairwise.nil
  | cons e m ih =>
    rw [flat_cons, List.pairwise_append]
    refine ⟨?_, ih hs.tail (fun e' he => hd e' (List.mem_cons_of_mem _ he)), ?_⟩
    · rw [List.pairwise_map]
      exact (hd e List.mem_cons_self).imp (fun h => Or.inr ⟨rfl, h⟩)
    · intro a ha b hb
      obtain ⟨x, -, rfl⟩ := List.mem_map.1 ha
      obtain ⟨⟨t, i⟩, d⟩ := b
      obtain ⟨tr, h1, -⟩ := mem_flat.1 hb
      exact Or.inl (hs.head _ h1)

structure Valid (m : Map D) (it : Iter D) : Prop where
  split : m = it.trPre.reverse ++ it.trSuf
  cur : ∀ c r, it.trSuf = c :: r → c.2.data = it.daPre.reverse ++ it.daSuf ∧ it.daSuf ≠ []

def rest (it : Iter D) : List (Id × D) :=
  match it.trSuf with
  | [] => []
  | c :: r => it.daSuf.map (tag c.1) ++ flat r

def before (it : Iter D) : List (Id × D) :=
  flat it.trPre.reverse ++
    match it.trSuf with
    | [] => []
    | c :: _ => it.daPre.reverse.map (tag c.1)

theorem flat_split {m : Map D} {it : Iter D} (h : Valid m it) : flat m = before it ++ rest it := by
  rw [h.split, flat_append]
  cases hs : it.trSuf with
  | nil => simp [before, rest, hs, flat_nil]
  | cons c r =>
    simp only [before, rest, hs, flat_cons, (h.cur c r hs).1, List.map_append, List.append_assoc]

theorem advance_spec {m : Map D} (hm : ∀ e ∈ m, e.2.data ≠ []) {trPre : List (Int × Traj D)} {c : Int × Traj D}
    {r : List (Int × Traj D)} {daPre daSuf : List (Int × D)} (h1 : m = trPre.reverse ++ c :: r)
    (h2 : c.2.data = daPre.reverse ++ daSuf) :
    Valid m (advance trPre (c :: r) daPre daSuf) ∧
    rest (advance trPre (c :: r) daPre daSuf) = daSuf.map (tag c.1) ++ flat r := by
  cases daSuf with
  | cons x daSuf =>
    refine ⟨⟨h1, ?_⟩, rfl⟩
    intro c' r' h
    simp only [advance, List.cons.injEq] at h ⊢
    obtain ⟨rfl, rfl⟩ := h
    exact ⟨h2, by simp⟩
  | nil =>
    cases r with
    | nil =>
      refine ⟨⟨by simpa [advance] using h1, ?_⟩, by simp [advance, rest, flat_nil]⟩
      intro c' r' h
      simp [advance] at h
    | cons n r =>
      have hn : n.2.data ≠ [] := hm n (by rw [h1]; simp)
      obtain ⟨x, l, hx⟩ := List.exists_cons_of_ne_nil hn
      have hadv : advance trPre (c :: n :: r) daPre [] = ⟨c :: trPre, n :: r, [], x :: l⟩ := by
        rw [advance, hx, advance]
      rw [hadv]
      refine ⟨⟨by simpa using h1, ?_⟩, by simp [rest, flat_cons, hx]⟩
      intro c' r' h
      simp only [List.cons.injEq] at h
      obtain ⟨rfl, rfl⟩ := h
      simp [hx]

theorem next_spec {m : Map D} (hm : ∀ e ∈ m, e.2.data ≠ []) {it : Iter D} (h : Valid m it) {x : Id × D} {L : List (Id × D)}
    (hr : rest it = x :: L) : it.deref = some x ∧ ∃ it', it.next = some it' ∧ Valid m it' ∧ rest it' = L := by
  cases hs : it.trSuf with
  | nil => simp [rest, hs] at hr
  | cons c r =>
    obtain ⟨h1, h2⟩ := h.cur c r hs
    obtain ⟨y, l, hy⟩ := List.exists_cons_of_ne_nil h2
    simp only [rest, hs, hy, List.map_cons, List.cons_append, List.cons.injEq] at hr
    obtain ⟨rfl, rfl⟩ := hr
    refine ⟨by simp [Iter.deref, hs, hy, tag], advance it.trPre (c :: r) (y :: it.daPre) l,
      by simp only [Iter.next, hs, hy], ?_⟩
    exact advance_spec hm (by rw [h.split, hs]) (by rw [h1, hy]; simp)

theorem before_of_rest {m : Map D} {it it' : Iter D} (h : Valid m it) (h' : Valid m it') {L : List (Id × D)}
    (hr : rest it' = L ++ rest it) : before it = before it' ++ L := by
  have e1 := flat_split h
  have e2 := flat_split h'
  rw [e1, hr, ← List.append_assoc] at e2
  exact List.append_cancel_right e2

theorem prev_spec {m : Map D} (hm : ∀ e ∈ m, e.2.data ≠ []) {it : Iter D} (h : Valid m it) {x : Id × D} {L : List (Id × D)}
    (hb : before it = L ++ [x]) :
    ∃ it', it.prev = some it' ∧ it'.deref = some x ∧ Valid m it' ∧ before it' = L ∧ rest it' = x :: rest it := by
  have key : ∀ it', it.prev = some it' → Valid m it' → (∃ y, it'.deref = some y ∧ rest it' = y :: rest it) →
      ∃ it', it.prev = some it' ∧ it'.deref = some x ∧ Valid m it' ∧ before it' = L ∧ rest it' = x :: rest it := by
    rintro it' e v ⟨y, hd, hr⟩
    have := before_of_rest h v (L := [y]) (by simpa using hr)
    rw [hb] at this
    obtain ⟨h1, h2⟩ := List.append_inj' this rfl
    simp only [List.cons.injEq, and_true] at h2
    subst h2
    exact ⟨it', e, hd, v, h1.symm, hr⟩
  have down : ∀ p trPre', it.trPre = p :: trPre' → (it.trSuf = [] ∨ it.daPre = []) →
      ∃ it', it.prev = some it' ∧ Valid m it' ∧ (∃ y, it'.deref = some y ∧ rest it' = y :: rest it) := by
    intro p trPre' hp hcase
    have hn : p.2.data ≠ [] := hm p (by rw [h.split, hp]; simp)
    rcases List.eq_nil_or_concat p.2.data with h0 | ⟨l, y, hl⟩
    · exact absurd h0 hn
    have e1 : it.prev = some ⟨trPre', p :: it.trSuf, l.reverse, [y]⟩ := by
      have : retreat trPre' (p :: it.trSuf) p.2.data.reverse [] = some ⟨trPre', p :: it.trSuf, l.reverse, [y]⟩ := by
        rw [hl, List.concat_eq_append, List.reverse_append, List.reverse_singleton, List.singleton_append, retreat]
      unfold Iter.prev
      rw [hp]
      rcases hcase with h' | h'
      · rw [h'] at this ⊢; rw [retreat]; exact this; simp
      · rw [h']; rw [retreat]; exact this; simp
    refine ⟨_, e1, ⟨by rw [h.split, hp]; simp, ?_⟩, ?_⟩
    · intro c r hcr
      simp only [List.cons.injEq] at hcr
      obtain ⟨rfl, rfl⟩ := hcr
      simp [hl]
    · refine ⟨((p.1, y.1), y.2), by simp [Iter.deref], ?_⟩
      simp only [rest, List.map_cons, List.map_nil, List.cons_append, List.nil_append, tag]
      cases hs : it.trSuf with
      | nil => simp [flat_nil]
      | cons c r =>
        rcases hcase with h' | h'
        · rw [hs] at h'; cases h'
        · have := (h.cur c r hs).1
          rw [h'] at this
          simp only [List.reverse_nil, List.nil_append] at this
          rw [flat_cons, this]
  cases hs : it.trSuf with
  | nil =>
    cases hp : it.trPre with
    | nil => simp [before, hs, hp, flat_nil] at hb
    | cons p trPre' =>
      obtain ⟨it', e, v, w⟩ := down p trPre' hp (Or.inl hs)
      exact key it' e v w
  | cons c r =>
    cases hd : it.daPre with
    | nil =>
      cases hp : it.trPre with
      | nil => simp [before, hs, hp, hd, flat_nil] at hb
      | cons p trPre' =>
        obtain ⟨it', e, v, w⟩ := down p trPre' hp (Or.inr hd)
        exact key it' e v w
    | cons y l =>
      have e1 : it.prev = some ⟨it.trPre, c :: r, l, y :: it.daSuf⟩ := by
        unfold Iter.prev
        rw [hs, hd, retreat]
      refine key _ e1 ⟨by rw [h.split, hs], ?_⟩ ?_
      · intro c' r' hcr
        simp only [List.cons.injEq] at hcr
        obtain ⟨rfl, rfl⟩ := hcr
        have := (h.cur _ _ hs).1
        rw [hd] at this
        simp only [List.reverse_cons, List.append_assoc, List.singleton_append] at this
        exact ⟨this, by simp⟩
      · exact ⟨((c.1, y.1), y.2), by simp [Iter.deref], by simp [rest, hs, tag]⟩

theorem suffix_eq {α : Type} {p p' q q' : List α} (h : p ++ q = p' ++ q') (hl : q.length = q'.length) : q = q' :=
  (List.append_inj' h hl).2

theorem length_flat_le_rest {m : Map D} {a b : Iter D} (ha : Valid m a) (hb : Valid m b)
    (h : b.trSuf.length < a.trSuf.length) : (rest b).length < (rest a).length := by
  have hsplit : a.trPre.reverse ++ a.trSuf = b.trPre.reverse ++ b.trSuf := by rw [← ha.split, ← hb.split]
  obtain ⟨q, hq⟩ : ∃ q, a.trSuf = q ++ b.trSuf := by
    rcases List.append_eq_append_iff.1 hsplit with ⟨q, h1, h2⟩ | ⟨q, h1, h2⟩
    · exact ⟨q, h2⟩
    · rw [h2] at h
      simp at h
  cases hs : a.trSuf with
  | nil => rw [hs] at h; simp at h
  | cons c r =>
    obtain ⟨h1, h2⟩ := ha.cur c r hs
    cases q with
    | nil => rw [hq] at h; simp at h
    | cons c' q =>
      rw [hs] at hq
      simp only [List.cons_append, List.cons.injEq] at hq
      obtain ⟨rfl, rfl⟩ := hq
      have hpos : 0 < a.daSuf.length := List.length_pos_of_ne_nil h2
      have hle : (rest b).length ≤ (flat b.trSuf).length := by
        cases hbs : b.trSuf with
        | nil => simp [rest, hbs]
        | cons cb rb =>
          have := (hb.cur cb rb hbs).1
          simp only [rest, hbs, flat_cons, this, List.length_append, List.length_map, List.length_reverse]
          omega
      have hra : rest a = a.daSuf.map (tag c.1) ++ flat (q ++ b.trSuf) := by simp only [rest, hs]
      rw [hra, flat_append, List.length_append, List.length_append, List.length_map]
      omega

theorem eq_iff {m : Map D} {a b : Iter D} (ha : Valid m a) (hb : Valid m b) :
    a.eq b = true ↔ (rest a).length = (rest b).length := by
  have hsplit : a.trPre.reverse ++ a.trSuf = b.trPre.reverse ++ b.trSuf := by rw [← ha.split, ← hb.split]
  rcases lt_trichotomy a.trSuf.length b.trSuf.length with h | h | h
  · have := length_flat_le_rest hb ha h
    constructor
    · intro he
      simp only [Iter.eq] at he
      split at he <;> simp at he <;> omega
    · intro he; omega
  · have hse := suffix_eq hsplit h
    cases hs : a.trSuf with
    | nil =>
      rw [hs] at hse
      simp [Iter.eq, hs, ← hse, rest]
    | cons c r =>
      have hsb : b.trSuf = c :: r := by rw [← hse, hs]
      obtain ⟨h1, -⟩ := ha.cur c r hs
      obtain ⟨h2, -⟩ := hb.cur c r hsb
      simp [Iter.eq, hs, hsb, rest]
  · have := length_flat_le_rest ha hb h
    constructor
    · intro he
      simp only [Iter.eq] at he
      split at he <;> simp at he <;> omega
    · intro he; omega

theorem forLoop_of {m : Map D} (hm : ∀ e ∈ m, e.2.data ≠ []) {stop : Iter D} (hs : Valid m stop) :
    ∀ (L : List (Id × D)) (it : Iter D), Valid m it → rest it = L ++ rest stop → ForLoop stop it L := by
  intro L
  induction L with
  | nil =>
    intro it hv hr
    exact .done ((eq_iff hv hs).2 (by rw [hr]; simp))
  | cons x L ih =>
    intro it hv hr
    obtain ⟨hd, it', hn, hv', hr'⟩ := next_spec hm hv (x := x) (L := L ++ rest stop) (by simpa using hr)
    refine .next ?_ hd hn (ih it' hv' hr')
    rw [Bool.eq_false_iff, ne_eq, eq_iff hv hs, hr]
    simp
    omega

theorem backLoop_of {m : Map D} (hm : ∀ e ∈ m, e.2.data ≠ []) {stop : Iter D} (hs : Valid m stop) :
    ∀ (L : List (Id × D)) (it : Iter D), Valid m it → rest stop = L ++ rest it → BackLoop stop it L.reverse := by
  intro L
  induction L using List.reverseRecOn with
  | nil =>
    intro it hv hr
    exact .done ((eq_iff hv hs).2 (by rw [hr]; simp))
  | append_singleton L x ih =>
    intro it hv hr
    have hb : before it = (before stop ++ L) ++ [x] := by
      rw [before_of_rest hv hs hr, List.append_assoc]
    obtain ⟨it', hp, hd, hv', hb', hr'⟩ := prev_spec hm hv hb
    rw [List.reverse_append, List.reverse_singleton, List.singleton_append]
    refine .next ?_ hp hd (ih it' hv' (by rw [hr, hr']; simp))
    rw [Bool.eq_false_iff, ne_eq, eq_iff hv hs, hr]
    simp
    omega

theorem ForLoop.unique {stop it : Iter D} {L L' : List (Id × D)} (h : ForLoop stop it L) (h' : ForLoop stop it L') :
    L = L' := by
  induction h generalizing L' with
  | done he =>
    cases h' with
    | done => rfl
    | next he' => rw [he] at he'; cases he'
  | next he hd hn _ ih =>
    cases h' with
    | done he' => rw [he] at he'; cases he'
    | next he' hd' hn' hl =>
      rw [hd] at hd'; rw [hn] at hn'
      simp only [Option.some.injEq] at hd' hn'
      subst hd'; subst hn'
      rw [ih hl]

theorem beginOfTrajectory_spec {m : Map D} (hm : WF m) (t : Int) :
    Valid m (beginOfTrajectory m t) ∧ rest (beginOfTrajectory m t) = (flat m).filter (fun e => t ≤ e.1.1) := by
  have hsplit := List.takeWhile_append_dropWhile (p := fun e : Int × Traj D => decide (e.1 < t)) (l := m)
  have hA : ∀ e ∈ m.takeWhile (fun e => decide (e.1 < t)), e.1 < t := by
    intro e he
    have := List.mem_takeWhile_imp he
    simpa using this
  have hB : ∀ e ∈ m.dropWhile (fun e => decide (e.1 < t)), t ≤ e.1 := by
    cases hd : m.dropWhile (fun e => decide (e.1 < t)) with
    | nil => simp
    | cons c r =>
      have hc : t ≤ c.1 := by
        have := List.head_dropWhile_not (l := m) (fun e : Int × Traj D => decide (e.1 < t)) (by rw [hd]; simp)
        simp only [hd, List.head_cons, decide_eq_false_iff_not, not_lt] at this
        exact this
      have hsd : SMap.Sorted (c :: r) := by
        rw [← hd]; exact hm.sorted.sublist (List.dropWhile_sublist _)
      intro e he
      rcases List.mem_cons.1 he with rfl | he
      · exact hc
      · exact le_trans hc (le_of_lt (hsd.head _ he))
  have hflat : (flat m).filter (fun e => t ≤ e.1.1) = flat (m.dropWhile (fun e => decide (e.1 < t))) := by
    conv_lhs => rw [← hsplit, flat_append, List.filter_append]
    have e1 : (flat (m.takeWhile (fun e => decide (e.1 < t)))).filter (fun e => t ≤ e.1.1) = [] := by
      rw [List.filter_eq_nil_iff]
      rintro ⟨id, d⟩ he
      obtain ⟨tr, h1, -⟩ := mem_flat.1 he
      have := hA _ h1
      simp only [decide_eq_true_eq, not_le]
      exact this
    have e2 : (flat (m.dropWhile (fun e => decide (e.1 < t)))).filter (fun e => t ≤ e.1.1) =
        flat (m.dropWhile (fun e => decide (e.1 < t))) := by
      rw [List.filter_eq_self]
      rintro ⟨id, d⟩ he
      obtain ⟨tr, h1, -⟩ := mem_flat.1 he
      simpa using hB _ h1
    rw [e1, e2]; rfl
  rw [hflat]
  unfold beginOfTrajectory
  simp only
  cases hd : m.dropWhile (fun e => decide (e.1 < t)) with
  | nil =>
    simp only [hd] at hsplit ⊢
    refine ⟨⟨by simpa using hsplit.symm, by simp⟩, rfl⟩
  | cons c r =>
    simp only
    obtain ⟨v, w⟩ := advance_spec (m := m) hm.nonempty (trPre := (m.takeWhile (fun e => decide (e.1 < t))).reverse) (c := c)
      (r := r) (daPre := []) (daSuf := c.2.data) (by rw [List.reverse_reverse, ← hd, hsplit]) (by simp)
    exact ⟨v, by rw [w, flat_cons]⟩

theorem takeDrop_key {V : Type} {l : List (Int × V)} (hs : SMap.Sorted l) {k : Int} {v : V} (h : (k, v) ∈ l) :
    ∃ r, l.dropWhile (fun e => e.1 ≠ k) = (k, v) :: r ∧ (∀ e ∈ l.takeWhile (fun e => e.1 ≠ k), e.1 < k) ∧ ∀ e ∈ r, k < e.1 := by
  induction l with
  | nil => cases h
  | cons e l ih =>
    rcases List.mem_cons.1 h with rfl | h'
    · refine ⟨l, by simp, by simp, hs.head⟩
    · have hlt := hs.head _ h'
      obtain ⟨r, h1, h2, h3⟩ := ih hs.tail h'
      have hne : e.1 ≠ k := ne_of_lt hlt
      refine ⟨r, ?_, ?_, h3⟩
      · rw [List.dropWhile_cons_of_pos (by simpa using hne)]; exact h1
      · rw [List.takeWhile_cons_of_pos (by simpa using hne)]
        intro e' he'
        rcases List.mem_cons.1 he' with rfl | he'
        · exact hlt
        · exact h2 e' he'

/-- `find` of a stored id. -/
theorem find_spec {m : Map D} (hm : WF m) {id : Id} {d : D} (h : (id, d) ∈ flat m) :
    Valid m (find m id) ∧ rest (find m id) = (flat m).filter (fun e => decide (e.1 = id ∨ idLt id e.1)) := by
  obtain ⟨tr, h1, h2⟩ := mem_flat.1 h
  have g1 := SMap.get?_of_mem hm.sorted h1
  have g2 := SMap.get?_of_mem (hm.dsorted _ h1) h2
  obtain ⟨r1, d1, t1, u1⟩ := takeDrop_key hm.sorted h1
  obtain ⟨r2, d2, t2, u2⟩ := takeDrop_key (hm.dsorted _ h1) h2
  have s1 := List.takeWhile_append_dropWhile (p := fun e : Int × Traj D => decide (e.1 ≠ id.1)) (l := m)
  have s2 := List.takeWhile_append_dropWhile (p := fun e : Int × D => decide (e.1 ≠ id.2)) (l := tr.data)
  have hf : find m id = ⟨(m.takeWhile (fun e => decide (e.1 ≠ id.1))).reverse, (id.1, tr) :: r1,
      (tr.data.takeWhile (fun e => decide (e.1 ≠ id.2))).reverse, (id.2, d) :: r2⟩ := by
    simp only [find, g1, g2, d1, d2]
  rw [d1] at s1
  rw [d2] at s2
  have hv : Valid m (find m id) := by
    rw [hf]
    refine ⟨by rw [List.reverse_reverse, s1], ?_⟩
    intro c r hc
    simp only [List.cons.injEq] at hc
    obtain ⟨rfl, rfl⟩ := hc
    exact ⟨by rw [List.reverse_reverse, s2], by simp⟩
  refine ⟨hv, ?_⟩
  rw [flat_split hv, List.filter_append]
  have e1 : (before (find m id)).filter (fun e => decide (e.1 = id ∨ idLt id e.1)) = [] := by
    rw [List.filter_eq_nil_iff]
    intro e he
    rw [hf] at he
    simp only [before, List.reverse_reverse, List.mem_append, List.mem_map] at he
    simp only [decide_eq_true_eq, not_or]
    rcases he with he | ⟨x, hx, rfl⟩
    · obtain ⟨eid, ed⟩ := e
      obtain ⟨tr', k1, -⟩ := mem_flat.1 he
      have := t1 _ k1
      simp only at this
      refine ⟨?_, ?_⟩
      · intro h; simp only at h; rw [h] at this; omega
      · simp only [idLt]; omega
    · have := t2 _ hx
      simp only [tag, idLt]
      refine ⟨?_, by omega⟩
      intro h
      have := congrArg Prod.snd h
      simp only at this
      omega
  have e2 : (rest (find m id)).filter (fun e => decide (e.1 = id ∨ idLt id e.1)) = rest (find m id) := by
    rw [List.filter_eq_self]
    intro e he
    rw [hf] at he
    simp only [rest, List.map_cons, List.cons_append, List.mem_cons, List.mem_append, List.mem_map] at he
    simp only [decide_eq_true_eq]
    rcases he with rfl | ⟨x, hx, rfl⟩ | he
    · left; rfl
    · right; right; exact ⟨rfl, u2 _ hx⟩
    · obtain ⟨eid, ed⟩ := e
      obtain ⟨tr', k1, -⟩ := mem_flat.1 he
      right; left; exact u1 _ k1
  rw [e1, e2]; rfl

/-- `find` of an id that is not stored is the end position. -/
theorem find_missing {m : Map D} {id : Id} (h : at? m id = none) :
    Valid m (find m id) ∧ rest (find m id) = [] := by
  have hf : find m id = ⟨m.reverse, [], [], []⟩ := by
    unfold find
    cases g1 : SMap.get? id.1 m with
    | none => rfl
    | some tr =>
      simp only [at?, g1, Option.bind_some] at h
      simp only [h]
  rw [hf]
  exact ⟨⟨by simp, by simp⟩, rfl⟩

end Verif.MapById
