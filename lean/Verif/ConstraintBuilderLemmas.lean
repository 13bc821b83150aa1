import Verif.ConstraintBuilder
import Mathlib.Data.List.Basic
import Mathlib.Data.List.Range
import Mathlib.Tactic.Common

/-!
# Invariant of the constraint builder
-/

namespace Verif.Builder

variable {R : Type}

/-- Tasks depend on tasks of lower rank only. -/
def rank : Kind → Nat
  | .construct => 0
  | .search _ _ => 1
  | .finishNode => 2
  | .whenDone => 3

/-- The invariant of all executions. -/
structure Inv (s : State R) : Prop where
  fin_lt : s.finishTask < s.numTasks
  wd_lt : s.whenDoneTask < s.numTasks
  fin_new : s.status s.finishTask = .new
  wd_new : s.status s.whenDoneTask = .new
  fin_kind : s.kind s.finishTask = .finishNode
  wd_kind : s.kind s.whenDoneTask = .whenDone
  new_only : ∀ t < s.numTasks, s.status t = .new → t = s.finishTask ∨ t = s.whenDoneTask
  deps_lt : ∀ t < s.numTasks, ∀ d ∈ s.deps t, d < s.numTasks ∧ s.status d ≠ .new ∧ rank (s.kind d) < rank (s.kind t)
  deps_done : ∀ t < s.numTasks, s.status t = .running ∨ s.status t = .done → ∀ d ∈ s.deps t, s.status d = .done
  slot : ∀ i < s.numSlots, s.searchTask i < s.numTasks ∧ ∃ m, s.kind (s.searchTask i) = .search i m
  search : ∀ t < s.numTasks, ∀ i m, s.kind t = .search i m →
    i < s.numSlots ∧ s.searchTask i = t ∧ s.deps t = [m] ∧ s.kind m = .construct
  req_le : s.requested ≤ s.notified
  not_le : s.notified ≤ s.numSlots
  clr_le : s.cleared ≤ s.numSlots
  un_notified : ∀ i, s.notified ≤ i → i < s.numSlots → s.searchTask i ∈ s.deps s.finishTask
  un_requested : ∀ i, s.requested ≤ i → i < s.notified → ∃ f ∈ s.deps s.whenDoneTask, s.searchTask i ∈ s.deps f
  unserved : ∀ i < s.requested, s.status (s.searchTask i) = .done ∨
    s.whenDone = true ∧ ∃ f ∈ s.deps s.pending, s.searchTask i ∈ s.deps f
  pend : s.whenDone = true → s.pending < s.numTasks ∧ s.kind s.pending = .whenDone ∧ s.status s.pending = .scheduled
  pend' : ∀ t < s.numTasks, s.kind t = .whenDone → s.status t = .scheduled → s.whenDone = true ∧ t = s.pending
  slots : s.constraints.map Prod.fst = List.range' s.cleared (s.numSlots - s.cleared)
  kept : ∀ e ∈ s.constraints, e.2 = s.found e.1
  found_none : ∀ i, s.numSlots ≤ i ∨ s.status (s.searchTask i) ≠ .done → s.found i = none
  delivered : s.results.flatten = (List.range s.cleared).filterMap s.found
  count : s.requests = s.results.length + if s.whenDone then 1 else 0
  matcher_lt : ∀ sm m, s.matcher sm = some m → m < s.numTasks ∧ s.kind m = .construct
  matcher_inj : ∀ sm sm' m, s.matcher sm = some m → s.matcher sm' = some m → sm = sm'
  construct : ∀ t < s.numTasks, s.kind t = .construct → ∃ i < s.numSlots, t ∈ s.deps (s.searchTask i)
  ready : ∀ t < s.numTasks, s.kind t = .construct → s.status t = .done → s.ready t = true

theorem inv_init : Inv (init R) := by
  constructor <;> simp only [init] <;> grind [rank]

theorem inv_delete {s : State R} (h : Inv s) (sm : Nat) : Inv { s with matcher := upd s.matcher sm none } := by
  obtain ⟨h1, h2, h3, h4, h5, h6, h7, h8, h9, h10, h11, h12, h13, h14, h15, h16, h17, h18, h19, h20, h21, h22, h23, h24, h25, h26, h27,
    h28⟩ := h
  constructor <;> (try assumption)
  · intro sm m; simp only [upd]; grind
  · intro sm sm' m; simp only [upd]; grind

theorem Inv.searchTask_ne {s : State R} (h : Inv s) {i : Nat} (hi : i < s.numSlots) :
    s.searchTask i < s.numTasks ∧ s.searchTask i ≠ s.finishTask ∧ s.searchTask i ≠ s.whenDoneTask := by
  obtain ⟨h1, m, h2⟩ := h.slot i hi
  refine ⟨h1, ?_, ?_⟩ <;> intro e <;> rw [e] at h2
  · rw [h.fin_kind] at h2; simp at h2
  · rw [h.wd_kind] at h2; simp at h2

theorem Inv.dep_ne {s : State R} (h : Inv s) {t d : Nat} (ht : t < s.numTasks) (hd : d ∈ s.deps t) :
    d < s.numTasks ∧ d ≠ s.finishTask ∧ d ≠ s.whenDoneTask := by
  obtain ⟨h1, h2, -⟩ := h.deps_lt t ht d hd
  refine ⟨h1, ?_, ?_⟩ <;> rintro rfl
  · exact h2 h.fin_new
  · exact h2 h.wd_new

theorem Inv.pending_ne {s : State R} (h : Inv s) (hw : s.whenDone = true) :
    s.pending < s.numTasks ∧ s.pending ≠ s.finishTask ∧ s.pending ≠ s.whenDoneTask := by
  obtain ⟨h1, h2, h3⟩ := h.pend hw
  refine ⟨h1, ?_, ?_⟩ <;> intro e <;> rw [e] at h3
  · rw [h.fin_new] at h3; simp at h3
  · rw [h.wd_new] at h3; simp at h3

theorem inv_notify {s : State R} (h : Inv s) : Inv (notifyEndOfNode s) := by
  have hs := @h.searchTask_ne
  have hd := @h.dep_ne
  have hp := h.pending_ne
  obtain ⟨h1, h2, h3, h4, h5, h6, h7, h8, h9, h10, h11, h12, h13, h14, h15, h16, h17, h18, h19, h20, h21, h22, h23, h24, h25, h26, h27,
    h28⟩ := h
  unfold notifyEndOfNode
  constructor <;> simp only [upd] <;> (try assumption)
  case deps_lt => clear hs h9 h10 h11 h12 h13 h14 h15 h16 h17 h18 h19 h20 h21 h22 h23 h24 h25 h26 h27 h28; grind [rank]
  case deps_done => clear hs h10 h11 h12 h13 h14 h15 h16 h17 h18 h19 h20 h21 h22 h23 h24 h25 h26 h27 h28; grind
  case unserved =>
    intro i hi
    obtain ⟨a1, a2, a3⟩ := hs (show i < s.numSlots by omega)
    rcases h17 i hi with h | ⟨hw, f, f1, f2⟩
    · left; grind
    · right
      obtain ⟨b1, b2, b3⟩ := hp hw
      obtain ⟨c1, c2, c3⟩ := hd b1 f1
      refine ⟨hw, f, ?_, ?_⟩
      · grind
      · grind
  case un_requested =>
    intro i hi1 hi2
    obtain ⟨a1, a2, a3⟩ := hs hi2
    by_cases hi : i < s.notified
    · obtain ⟨f, f1, f2⟩ := h16 i hi1 hi
      obtain ⟨c1, c2, c3⟩ := hd h2 f1
      refine ⟨f, ?_, ?_⟩
      · grind
      · grind
    · have := h15 i (by omega) hi2
      refine ⟨s.finishTask, ?_, ?_⟩
      · grind
      · grind
  case search =>
    intro t ht i m hk
    have ht' : t < s.numTasks := by
      by_contra hc
      rw [if_pos (show t = s.numTasks by omega)] at hk
      simp at hk
    rw [if_neg (by omega)] at hk
    obtain ⟨a1, a2, a3, a4⟩ := h11 t ht' i m hk
    obtain ⟨b1, -, -⟩ := h8 t ht' m (by rw [a3]; simp)
    refine ⟨a1, a2, ?_, ?_⟩
    · rw [if_neg (by omega)]
      first | exact a3 | (rw [if_neg (by rintro rfl; rw [h6] at hk; simp at hk)]; exact a3)
    · rw [if_neg (by omega)]
      exact a4
  case found_none => clear h9 h11 h12 h15 h16 h17 h18 h19; grind
  case construct => clear h9 h12 h15 h16 h17 h18 h19; grind
  case ready => clear h9 h12 h15 h16 h17 h18 h19; grind
  all_goals (clear h9 h17; grind)

theorem inv_whenDone {s t : State R} (h : Inv s) (he : callWhenDone s = some t) : Inv t := by
  have hs := @h.searchTask_ne
  have hd := @h.dep_ne
  have hp := h.pending_ne
  obtain ⟨h1, h2, h3, h4, h5, h6, h7, h8, h9, h10, h11, h12, h13, h14, h15, h16, h17, h18, h19, h20, h21, h22, h23, h24, h25, h26, h27,
    h28⟩ := h
  unfold callWhenDone at he
  split at he
  · simp at he
  next hw =>
  obtain rfl := Option.some.inj he
  constructor <;> simp only [upd] <;> (try assumption)
  case deps_lt => clear hs h9 h10 h11 h12 h13 h14 h15 h16 h17 h18 h19 h20 h21 h22 h23 h24 h25 h26 h27 h28; grind [rank]
  case deps_done => clear hs h10 h11 h12 h13 h14 h15 h16 h17 h18 h19 h20 h21 h22 h23 h24 h25 h26 h27 h28; grind
  case unserved =>
    intro i hi
    obtain ⟨a1, a2, a3⟩ := hs (show i < s.numSlots by omega)
    by_cases hi2 : i < s.requested
    · rcases h17 i hi2 with h | ⟨hw', -⟩
      · left; grind
      · exact absurd hw' hw
    · right
      obtain ⟨f, f1, f2⟩ := h16 i (by omega) hi
      obtain ⟨c1, c2, c3⟩ := hd h2 f1
      refine ⟨trivial, f, ?_, ?_⟩
      · grind
      · grind
  case search =>
    intro t ht i m hk
    have ht' : t < s.numTasks := by
      by_contra hc
      rw [if_pos (show t = s.numTasks by omega)] at hk
      simp at hk
    rw [if_neg (by omega)] at hk
    obtain ⟨a1, a2, a3, a4⟩ := h11 t ht' i m hk
    obtain ⟨b1, -, -⟩ := h8 t ht' m (by rw [a3]; simp)
    refine ⟨a1, a2, ?_, ?_⟩
    · rw [if_neg (by omega)]
      first | exact a3 | (rw [if_neg (by rintro rfl; rw [h6] at hk; simp at hk)]; exact a3)
    · rw [if_neg (by omega)]
      exact a4
  case found_none => clear h9 h11 h12 h15 h16 h17 h18 h19; grind
  case construct => clear h9 h12 h15 h16 h17 h18 h19; grind
  case ready => clear h9 h12 h15 h16 h17 h18 h19; grind
  all_goals (clear h9 h17; grind)

/-- Changing the status of a task which is not new, to a status which is not new, and which satisfies the requirements. -/
theorem inv_begin {s t' : State R} {t : Nat} (h : Inv s) (ha : Enabled s (.begin t)) (he : beginTask s t = some t') : Inv t' := by
  obtain ⟨ht, hst, hdone⟩ := ha
  have hne1 : t ≠ s.finishTask := by rintro rfl; rw [h.fin_new] at hst; simp at hst
  have hne2 : t ≠ s.whenDoneTask := by rintro rfl; rw [h.wd_new] at hst; simp at hst
  have base : ∀ s1 : State R, s1 = { s with status := upd s.status t .running } → s.kind t ≠ .whenDone → Inv s1 := by
    rintro s1 rfl hk
    obtain ⟨h1, h2, h3, h4, h5, h6, h7, h8, h9, h10, h11, h12, h13, h14, h15, h16, h17, h18, h19, h20, h21, h22, h23, h24, h25, h26, h27,
      h28⟩ := h
    constructor <;> simp only [upd] <;> (try assumption)
    case unserved =>
      intro i hi
      rcases h17 i hi with h | ⟨hw, f, f1, f2⟩
      · left; grind
      · right; exact ⟨hw, f, f1, f2⟩
    case found_none => grind
    all_goals (clear h17; grind)
  unfold beginTask at he
  cases hk : s.kind t with
  | construct =>
    simp only [hk] at he
    obtain rfl := Option.some.inj he
    exact base _ rfl (by simp [hk])
  | finishNode =>
    simp only [hk] at he
    obtain rfl := Option.some.inj he
    exact base _ rfl (by simp [hk])
  | search i m =>
    simp only [hk] at he
    split at he
    · obtain rfl := Option.some.inj he
      exact base _ rfl (by simp [hk])
    · simp at he
  | whenDone =>
    simp only [hk] at he
    split at he
    next hw =>
      obtain rfl := Option.some.inj he
      have hpend : t = s.pending := (h.pend' t ht hk hst).2
      clear base
      have hall : ∀ i < s.requested, s.status (s.searchTask i) = .done := by
        intro i hi
        rcases h.unserved i hi with h' | ⟨-, f, f1, f2⟩
        · exact h'
        · rw [← hpend] at f1
          obtain ⟨f3, -, -⟩ := h.deps_lt t ht f f1
          exact h.deps_done f f3 (Or.inr (hdone f f1)) _ f2
      obtain ⟨h1, h2, h3, h4, h5, h6, h7, h8, h9, h10, h11, h12, h13, h14, h15, h16, h17, h18, h19, h20, h21, h22, h23, h24, h25, h26, h27,
        h28⟩ := h
      constructor <;> simp only [upd] <;> (try assumption)
      case unserved =>
        intro i hi
        left
        have := hall i hi
        grind
      case slots => simp
      case delivered =>
        rw [List.flatten_append, h23]
        have e1 : s.constraints.filterMap Prod.snd = (s.constraints.map Prod.fst).filterMap s.found := by
          rw [List.filterMap_map]
          apply List.filterMap_congr
          intro e he
          exact h21 e he
        have e2 : List.range s.numSlots = List.range s.cleared ++ List.range' s.cleared (s.numSlots - s.cleared) := by
          rw [List.range_eq_range', List.range_eq_range']
          have := @List.range'_append 0 s.cleared (s.numSlots - s.cleared) 1
          simp only [Nat.one_mul, Nat.zero_add] at this
          rw [this]
          congr 1
          omega
        rw [e2, List.filterMap_append, ← h20, ← e1]
        simp
      case count => simp [h24, hw]
      case found_none => grind
      all_goals (clear h17; grind)
    · simp at he

theorem inv_finish {s t' : State R} {t : Nat} {r : Option R} (h : Inv s) (ha : Enabled s (.finish t r))
    (he : finishTask s t r = some t') : Inv t' := by
  obtain ⟨ht, hst⟩ := ha
  have hne1 : t ≠ s.finishTask := by rintro rfl; rw [h.fin_new] at hst; simp at hst
  have hne2 : t ≠ s.whenDoneTask := by rintro rfl; rw [h.wd_new] at hst; simp at hst
  have base : ∀ s1 : State R, s1 = { s with status := upd s.status t .done } → s.kind t ≠ .construct → Inv s1 := by
    rintro s1 rfl hk
    obtain ⟨h1, h2, h3, h4, h5, h6, h7, h8, h9, h10, h11, h12, h13, h14, h15, h16, h17, h18, h19, h20, h21, h22, h23, h24, h25, h26, h27,
      h28⟩ := h
    constructor <;> simp only [upd] <;> (try assumption)
    case unserved =>
      intro i hi
      rcases h17 i hi with h | ⟨hw, f, f1, f2⟩
      · left; grind
      · right; exact ⟨hw, f, f1, f2⟩
    case found_none => grind
    all_goals (clear h17; grind)
  unfold finishTask at he
  cases hk : s.kind t with
  | construct =>
    simp only [hk] at he
    split at he
    · obtain rfl := Option.some.inj he
      clear base
      obtain ⟨h1, h2, h3, h4, h5, h6, h7, h8, h9, h10, h11, h12, h13, h14, h15, h16, h17, h18, h19, h20, h21, h22, h23, h24, h25, h26, h27,
        h28⟩ := h
      constructor <;> simp only [upd] <;> (try assumption)
      case unserved =>
        intro i hi
        rcases h17 i hi with h | ⟨hw, f, f1, f2⟩
        · left; grind
        · right; exact ⟨hw, f, f1, f2⟩
      case found_none => grind
      all_goals (clear h17; grind)
    · simp at he
  | finishNode =>
    simp only [hk] at he
    obtain rfl := Option.some.inj he
    have := base _ rfl (by simp [hk])
    exact ⟨this.1, this.2, this.3, this.4, this.5, this.6, this.7, this.8, this.9, this.10, this.11, this.12, this.13, this.14, this.15,
      this.16, this.17, this.18, this.19, this.20, this.21, this.22, this.23, this.24, this.25, this.26, this.27, this.28⟩
  | whenDone =>
    simp only [hk] at he
    obtain rfl := Option.some.inj he
    exact base _ rfl (by simp [hk])
  | search i m =>
    simp only [hk] at he
    split at he
    · cases r with
      | none =>
        obtain rfl := Option.some.inj he
        exact base _ rfl (by simp [hk])
      | some v =>
        simp only at he
        split at he
        next hmem =>
          obtain rfl := Option.some.inj he
          have b := base _ rfl (by simp [hk])
          obtain ⟨hi1, hi2, hi3, hi4⟩ := h.search t ht i m hk
          obtain ⟨h1, h2, h3, h4, h5, h6, h7, h8, h9, h10, h11, h12, h13, h14, h15, h16, h17, h18, h19, h20, h21, h22, h23, h24, h25, h26,
            h27, h28⟩ := b
          have hic : s.cleared ≤ i := by
            have := h.slots
            rw [this, List.mem_range'_1] at hmem
            exact hmem.1
          constructor <;> (try assumption)
          case slots =>
            rw [← h20]
            simp only [List.map_map]
            apply List.map_congr_left
            intro e _
            simp only [Function.comp]
            split <;> rfl
          case kept =>
            intro e he
            simp only [List.mem_map] at he
            obtain ⟨e', he', rfl⟩ := he
            have := h.kept e' he'
            simp only [upd]
            split
            next heq => simp
            next heq => simp [this]
          case found_none =>
            intro j hj
            have := h22 j hj
            simp only [upd] at hj this ⊢
            split
            next heq => subst heq; rw [hi2, if_pos rfl] at hj; simp at hj; omega
            next heq => exact this
          case delivered =>
            simp only at h23 ⊢
            rw [h23]
            apply List.filterMap_congr
            intro j hj
            rw [List.mem_range] at hj
            simp only [upd]
            rw [if_neg (by omega)]
        next => simp at he
    · simp at he

set_option maxHeartbeats 1000000 in
theorem inv_addSearch {s : State R} (h : Inv s) (sm : Nat) : Inv (addSearch s sm) := by
  have hs := @h.searchTask_ne
  have hd := @h.dep_ne
  have hp := h.pending_ne
  obtain ⟨h1, h2, h3, h4, h5, h6, h7, h8, h9, h10, h11, h12, h13, h14, h15, h16, h17, h18, h19, h20, h21, h22, h23, h24, h25, h26, h27,
    h28⟩ := h
  have hne : s.finishTask ≠ s.whenDoneTask := by intro e; rw [e, h6] at h5; simp at h5
  have hslots : (s.constraints ++ [(s.numSlots, none)]).map Prod.fst = List.range' s.cleared (s.numSlots + 1 - s.cleared) := by
    rw [List.map_append, h20, show s.numSlots + 1 - s.cleared = (s.numSlots - s.cleared) + 1 by omega, List.range'_concat]
    simp only [List.map_cons, List.map_nil]
    congr 2
    omega
  have hkept : ∀ e ∈ s.constraints ++ [(s.numSlots, none)], e.2 = s.found e.1 := by
    intro e he
    simp only [List.mem_append, List.mem_singleton] at he
    rcases he with he | rfl
    · exact h21 e he
    · exact (h22 s.numSlots (Or.inl (le_refl _))).symm
  unfold addSearch dispatch
  cases hm : s.matcher sm with
  | some m =>
    obtain ⟨m1, m2⟩ := h25 sm m hm
    have m3 : m ≠ s.finishTask := by rintro rfl; rw [h5] at m2; simp at m2
    have m4 : m ≠ s.whenDoneTask := by rintro rfl; rw [h6] at m2; simp at m2
    have m5 : s.status m ≠ .new := by
      intro e
      rcases h7 m m1 e with e | e
      · exact m3 e
      · exact m4 e
    constructor <;> simp only [upd] <;> (try assumption)
    case deps_lt => clear hs h9 h10 h11 h12 h13 h14 h15 h16 h17 h18 h19 h20 h21 h22 h23 h24 h25 h26 h27 h28 hslots hkept; grind [rank]
    case deps_done => clear hs h10 h11 h12 h13 h14 h15 h16 h17 h18 h19 h20 h21 h22 h23 h24 h25 h26 h27 h28 hslots hkept; grind
    case slot =>
      intro i hi
      by_cases hi' : i = s.numSlots
      · simp only [if_pos hi']
        exact ⟨by omega, m, by simp [hi']⟩
      · obtain ⟨a1, m', a2⟩ := h10 i (by omega)
        simp only [if_neg hi']
        exact ⟨by omega, m', by rw [if_neg (by omega)]; exact a2⟩
    case search =>
      intro t ht i m' hk
      by_cases ht' : t = s.numTasks
      · subst ht'
        simp only [if_pos] at hk
        obtain ⟨rfl, rfl⟩ : s.numSlots = i ∧ m = m' := by simpa using hk
        refine ⟨by omega, by simp, ?_, ?_⟩
        · rw [if_neg (by omega), if_pos rfl]
        · rw [if_neg (by omega)]; exact m2
      · rw [if_neg ht'] at hk
        obtain ⟨a1, a2, a3, a4⟩ := h11 t (by omega) i m' hk
        obtain ⟨b1, -, -⟩ := h8 t (by omega) m' (by rw [a3]; simp)
        refine ⟨by omega, ?_, ?_, ?_⟩
        · rw [if_neg (by omega)]; exact a2
        · rw [if_neg (by rintro rfl; rw [h5] at hk; simp at hk), if_neg ht']; exact a3
        · rw [if_neg (by omega)]; exact a4
    case un_notified =>
      intro i hi1 hi2
      by_cases hi : i = s.numSlots
      · simp [hi]
      · have := h15 i hi1 (by omega)
        simp [hi, this]
    case un_requested =>
      intro i hi1 hi2
      obtain ⟨f, f1, f2⟩ := h16 i hi1 hi2
      obtain ⟨c1, c2, c3⟩ := hd h2 f1
      refine ⟨f, ?_, ?_⟩
      · rw [if_neg hne.symm, if_neg (by omega)]; exact f1
      · rw [if_neg c2, if_neg (by omega), if_neg (by omega)]; exact f2
    case unserved =>
      intro i hi
      obtain ⟨a1, a2, a3⟩ := hs (show i < s.numSlots by omega)
      rw [if_neg (show ¬ i = s.numSlots by omega)]
      rcases h17 i hi with h | ⟨hw, f, f1, f2⟩
      · left; rw [if_neg (by omega)]; exact h
      · right
        obtain ⟨b1, b2, b3⟩ := hp hw
        obtain ⟨c1, c2, c3⟩ := hd b1 f1
        refine ⟨hw, f, ?_, ?_⟩
        · rw [if_neg b2, if_neg (by omega)]; exact f1
        · rw [if_neg c2, if_neg (by omega)]; exact f2
    case found_none =>
      intro i hi
      by_cases hi' : i = s.numSlots
      · exact h22 i (Or.inl (by omega))
      · apply h22
        rw [if_neg hi'] at hi
        rcases hi with hi | hi
        · left; omega
        · by_cases hlt : i < s.numSlots
          · right
            obtain ⟨a1, -⟩ := hs hlt
            rwa [if_neg (by omega)] at hi
          · left; omega
    case construct =>
      intro t ht hk
      by_cases ht' : t = s.numTasks
      · rw [if_pos ht'] at hk; simp at hk
      · rw [if_neg ht'] at hk
        obtain ⟨i, i1, i2⟩ := h27 t (by omega) hk
        obtain ⟨a1, a2, a3⟩ := hs i1
        refine ⟨i, by omega, ?_⟩
        rw [if_neg (show ¬ i = s.numSlots by omega), if_neg a2, if_neg (by omega)]
        exact i2
    all_goals (clear h9 h17; grind)
  | none =>
    constructor <;> simp only [upd] <;> (try assumption)
    case deps_lt => clear hs h9 h10 h11 h12 h13 h14 h15 h16 h17 h18 h19 h20 h21 h22 h23 h24 h25 h26 h27 h28 hslots hkept; grind [rank]
    case deps_done => clear hs h10 h11 h12 h13 h14 h15 h16 h17 h18 h19 h20 h21 h22 h23 h24 h25 h26 h27 h28 hslots hkept; grind
    case slot =>
      intro i hi
      by_cases hi' : i = s.numSlots
      · simp only [if_pos hi']
        exact ⟨by omega, s.numTasks, by simp [hi']⟩
      · obtain ⟨a1, m', a2⟩ := h10 i (by omega)
        simp only [if_neg hi']
        exact ⟨by omega, m', by rw [if_neg (by omega), if_neg (by omega)]; exact a2⟩
    case search =>
      intro t ht i m' hk
      by_cases ht' : t = s.numTasks + 1
      · subst ht'
        simp only [if_pos] at hk
        obtain ⟨rfl, rfl⟩ : s.numSlots = i ∧ s.numTasks = m' := by simpa using hk
        refine ⟨by omega, by simp, ?_, ?_⟩
        · rw [if_neg (by omega), if_pos rfl]
        · rw [if_neg (by omega), if_pos rfl]
      · rw [if_neg ht'] at hk
        by_cases ht2 : t = s.numTasks
        · rw [if_pos ht2] at hk; simp at hk
        rw [if_neg ht2] at hk
        obtain ⟨a1, a2, a3, a4⟩ := h11 t (by omega) i m' hk
        obtain ⟨b1, -, -⟩ := h8 t (by omega) m' (by rw [a3]; simp)
        refine ⟨by omega, ?_, ?_, ?_⟩
        · rw [if_neg (by omega)]; exact a2
        · rw [if_neg (by rintro rfl; rw [h5] at hk; simp at hk), if_neg ht', if_neg ht2]; exact a3
        · rw [if_neg (by omega), if_neg (by omega)]; exact a4
    case un_notified =>
      intro i hi1 hi2
      by_cases hi : i = s.numSlots
      · simp [hi]
      · have := h15 i hi1 (by omega)
        have e : ¬ s.finishTask = s.numTasks := by omega
        simp [hi, this, e]
    case un_requested =>
      intro i hi1 hi2
      obtain ⟨f, f1, f2⟩ := h16 i hi1 hi2
      obtain ⟨c1, c2, c3⟩ := hd h2 f1
      refine ⟨f, ?_, ?_⟩
      · rw [if_neg hne.symm, if_neg (by omega), if_neg (by omega)]; exact f1
      · rw [if_neg c2, if_neg (by omega), if_neg (by omega), if_neg (by omega)]; exact f2
    case unserved =>
      intro i hi
      obtain ⟨a1, a2, a3⟩ := hs (show i < s.numSlots by omega)
      rw [if_neg (show ¬ i = s.numSlots by omega)]
      rcases h17 i hi with h | ⟨hw, f, f1, f2⟩
      · left; rw [if_neg (by omega), if_neg (by omega)]; exact h
      · right
        obtain ⟨b1, b2, b3⟩ := hp hw
        obtain ⟨c1, c2, c3⟩ := hd b1 f1
        refine ⟨hw, f, ?_, ?_⟩
        · rw [if_neg b2, if_neg (by omega), if_neg (by omega)]; exact f1
        · rw [if_neg c2, if_neg (by omega), if_neg (by omega)]; exact f2
    case found_none =>
      intro i hi
      by_cases hi' : i = s.numSlots
      · exact h22 i (Or.inl (by omega))
      · apply h22
        rw [if_neg hi'] at hi
        rcases hi with hi | hi
        · left; omega
        · by_cases hlt : i < s.numSlots
          · right
            obtain ⟨a1, -⟩ := hs hlt
            rwa [if_neg (by omega), if_neg (by omega)] at hi
          · left; omega
    case construct =>
      intro t ht hk
      by_cases ht' : t = s.numTasks + 1
      · rw [if_pos ht'] at hk; simp at hk
      · rw [if_neg ht'] at hk
        by_cases ht2 : t = s.numTasks
        · refine ⟨s.numSlots, by omega, ?_⟩
          rw [if_pos rfl, if_neg (by omega), if_pos rfl, ht2]
          simp
        rw [if_neg ht2] at hk
        obtain ⟨i, i1, i2⟩ := h27 t (by omega) hk
        obtain ⟨a1, a2, a3⟩ := hs i1
        refine ⟨i, by omega, ?_⟩
        rw [if_neg (show ¬ i = s.numSlots by omega), if_neg a2, if_neg (by omega), if_neg (by omega)]
        exact i2
    all_goals (clear h9 h17; grind)

theorem inv_step {s t : State R} {a : Act R} (h : Inv s) (ha : Enabled s a) (he : exec s a = some t) : Inv t := by
  cases a with
  | addSearch sm => obtain rfl := Option.some.inj he; exact inv_addSearch h sm
  | notifyEndOfNode => obtain rfl := Option.some.inj he; exact inv_notify h
  | callWhenDone => exact inv_whenDone h he
  | deleteScanMatcher sm => obtain rfl := Option.some.inj he; exact inv_delete h sm
  | begin t => exact inv_begin h ha he
  | finish t r => exact inv_finish h ha he

theorem inv_exec {s t : State R} {as : List (Act R)} (h : Exec s as t) (hs : Inv s) : Inv t := by
  induction h with
  | nil => exact hs
  | cons ha he _ ih => exact ih (inv_step hs ha he)

end Verif.Builder
