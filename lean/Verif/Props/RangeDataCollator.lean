import Mathlib.Data.List.Perm.Basic
import Mathlib.Data.List.TakeWhile
import Mathlib.Data.List.Sort
import Verif.RangeDataCollator

/-!
C27: merging several range sensors conserves points and orders them by time.
-/

namespace Verif.RangeCollator

variable {A O F : Type}

/-! ### Specification -/

/-- A physical measurement, with its absolute time and the origin of its sensor. -/
structure Physical (A O F : Type) where
  position : A
  time : Int
  intensity : F
  origin : O
deriving DecidableEq

/-- The measurements carried by an incoming message; missing intensities are the default. -/
def arrived (default : F) (m : Message A O F) : List (Physical A O F) :=
  m.ranges.mapIdx (fun i r => ⟨r.1, m.time + r.2, m.intensities.getD i default, m.origin⟩)

/-- The measurements carried by a synchronized scan: the origin is looked up by its index. -/
def delivered (r : Scan A O F) : List (Physical A O F) :=
  r.ranges.filterMap (fun q => (r.origins[q.originIndex]?).map (fun o => ⟨q.position, r.time + q.time, q.intensity, o⟩))

/-- The measurements of a buffered message. -/
def carried (d : Pending A O F) : List (Physical A O F) :=
  d.points.map (fun p => ⟨p.position, d.time + p.time, p.intensity, d.origin⟩)

/-- The buffered measurements that are not older than the end of the last scan (older ones are about to be dropped). -/
def buffered (s : State A O F) : List (Physical A O F) :=
  (s.pending.flatMap (fun e => carried e.2)).filter (fun p => decide (s.currentEnd ≤ p.time))

/-- The window start a message is subject to when it is put into the buffer: if an older message of the same sensor has to be
sent out first, the end of that scan; otherwise the end of the scan before. -/
def windowStart (s s' : State A O F) (id : Int) : Int :=
  match SMap.get? id s.pending with
  | some _ => s'.currentEnd
  | none => s.currentEnd

/-- All measurements of a sequence of calls which are not older than the window start when they are added. -/
def accepted (sort : List (Measurement A F) → List (Measurement A F)) (default : F) (expected : List Int) :
    State A O F → List (Int × Message A O F) → List (Physical A O F)
  | _, [] => []
  | s, (id, m) :: l =>
    match addRangeData sort default expected s id m with
    | none => []
    | some (s', _) =>
      (arrived default m).filter (fun p => decide (windowStart s s' id ≤ p.time)) ++ accepted sort default expected s' l

/-- `std::sort` by time: a sorted permutation. -/
def IsSort (sort : List (Measurement A F) → List (Measurement A F)) : Prop :=
  ∀ l, (sort l).Perm l ∧ (sort l).Pairwise (fun a b => a.time ≤ b.time)

/-- Point times are sorted and relative to the last point (timed_point_cloud_data.h, point_cloud.h 63-66: "the time of the last
point is 0"); required by the trajectory builder. -/
def GoodMessage (m : Message A O F) : Prop :=
  m.ranges.Pairwise (fun a b => a.2 ≤ b.2) ∧ (∀ r ∈ m.ranges, r.2 ≤ 0) ∧ timeMin ≤ m.time ∧ m.time ≤ timeMax

/-- Messages arrive in the order of their times (this is what the sensor collator guarantees). -/
def InOrder (calls : List (Int × Message A O F)) : Prop := calls.Pairwise (fun a b => a.2.time ≤ b.2.time)

/-! ### Lemmas -/

def GoodPending (d : Pending A O F) : Prop :=
  d.points.Pairwise (fun a b => a.time ≤ b.time) ∧ ∀ p ∈ d.points, p.time ≤ 0

theorem zip_arrived (default : F) (time : Int) (origin : O) (rs : List (A × Int)) (is : List F) :
    (List.zipWith (fun (r : A × Int) (i : F) => (⟨r.1, r.2, i⟩ : Point A F)) rs
      (is.take rs.length ++ List.replicate (rs.length - is.length) default)).map
        (fun p => (⟨p.position, time + p.time, p.intensity, origin⟩ : Physical A O F)) =
      rs.mapIdx (fun i r => ⟨r.1, time + r.2, is.getD i default, origin⟩) := by
  induction rs generalizing is with
  | nil => simp
  | cons r rs ih =>
    cases is with
    | nil =>
      have := ih []
      simp only [List.take_nil, List.nil_append, List.length_nil, Nat.sub_zero] at this
      simp only [List.take_nil, List.nil_append, List.length_nil, Nat.sub_zero, List.length_cons, List.replicate_succ,
        List.zipWith_cons_cons, List.map_cons, List.mapIdx_cons, this]
      simp
    | cons i is =>
      have := ih is
      simp only [List.take_succ_cons, List.length_cons, List.cons_append, List.zipWith_cons_cons, List.map_cons,
        List.mapIdx_cons, Nat.add_sub_add_right]
      rw [this]
      simp

theorem carried_resize (default : F) (m : Message A O F) : carried (resize default m) = arrived default m :=
  zip_arrived default m.time m.origin m.ranges m.intensities

theorem resize_times (default : F) (rs : List (A × Int)) (is : List F) :
    (List.zipWith (fun (r : A × Int) (i : F) => (⟨r.1, r.2, i⟩ : Point A F)) rs
      (is.take rs.length ++ List.replicate (rs.length - is.length) default)).map (fun p => p.time) = rs.map (fun r => r.2) := by
  induction rs generalizing is with
  | nil => simp
  | cons r rs ih =>
    cases is with
    | nil =>
      have := ih []
      simp only [List.take_nil, List.nil_append, List.length_nil, Nat.sub_zero] at this
      simp only [List.take_nil, List.nil_append, List.length_nil, Nat.sub_zero, List.length_cons, List.replicate_succ,
        List.zipWith_cons_cons, List.map_cons, this]
    | cons i is =>
      have := ih is
      simp only [List.take_succ_cons, List.length_cons, List.cons_append, List.zipWith_cons_cons, List.map_cons,
        Nat.add_sub_add_right]
      rw [this]

theorem good_resize {default : F} {m : Message A O F} (h : GoodMessage m) : GoodPending (resize default m) := by
  have ht := resize_times default m.ranges m.intensities
  constructor
  · have : ((resize default m).points.map (fun p => p.time)).Pairwise (· ≤ ·) := by
      simp only [resize]
      rw [ht]
      exact List.pairwise_map.2 h.1
    exact List.pairwise_map.1 this
  · intro p hp
    have : p.time ∈ (resize default m).points.map (fun p => p.time) := List.mem_map.2 ⟨p, hp, rfl⟩
    simp only [resize] at this
    rw [ht] at this
    obtain ⟨r, hr, he⟩ := List.mem_map.1 this
    exact he ▸ h.2.1 r hr

/-- On a sorted list, dropping the prefix below a bound keeps exactly the rest. -/
theorem dropWhile_eq_filter {P : Type} (f : P → Int) (b : Int) {l : List P} (h : l.Pairwise (fun a b => f a ≤ f b)) :
    l.dropWhile (fun p => decide (f p < b)) = l.filter (fun p => decide (b ≤ f p)) := by
  induction l with
  | nil => rfl
  | cons a l ih =>
    rw [List.pairwise_cons] at h
    by_cases ha : f a < b
    · have : ¬ b ≤ f a := by omega
      simp [List.dropWhile_cons, ha, this, ih h.2]
    · have hb : b ≤ f a := by omega
      have hl : l.filter (fun p => decide (b ≤ f p)) = l :=
        List.filter_eq_self.2 (fun x hx => by have := h.1 x hx; simp; omega)
      simp [List.dropWhile_cons, ha, hb, hl]

theorem mem_dropWhile_gt {P : Type} (f : P → Int) (b : Int) {l : List P} (h : l.Pairwise (fun a b => f a ≤ f b)) {p : P}
    (hp : p ∈ l.dropWhile (fun p => decide (f p ≤ b))) : b < f p := by
  have he : (fun p => decide (f p ≤ b)) = (fun p => decide (f p < b + 1)) := by
    funext p
    simp only [decide_eq_decide]
    omega
  rw [he, dropWhile_eq_filter f (b + 1) h, List.mem_filter] at hp
  have := of_decide_eq_true hp.2
  omega

theorem fromStart_good {d : Pending A O F} (h : GoodPending d) (start : Int) :
    (fromStart start d).Pairwise (fun a b => d.time + a.time ≤ d.time + b.time) := by
  have : d.points.Pairwise (fun a b => d.time + a.time ≤ d.time + b.time) := h.1.imp (fun hab => by omega)
  exact this.sublist (List.dropWhile_sublist _)

theorem overlap_times {start stop : Int} {d : Pending A O F} (h : GoodPending d) {p : Point A F}
    (hp : p ∈ overlap start stop d) : start ≤ d.time + p.time ∧ d.time + p.time ≤ stop := by
  constructor
  · have hm : p ∈ fromStart start d := (List.takeWhile_sublist _).subset hp
    have hs : d.points.Pairwise (fun a b => d.time + a.time ≤ d.time + b.time) := h.1.imp (fun hab => by omega)
    rw [fromStart, dropWhile_eq_filter (fun p : Point A F => d.time + p.time) start hs, List.mem_filter] at hm
    exact of_decide_eq_true hm.2
  · exact of_decide_eq_true (List.mem_takeWhile_imp (p := fun p : Point A F => decide (d.time + p.time ≤ stop)) hp)

theorem remaining_times {start stop : Int} {d : Pending A O F} (h : GoodPending d) {p : Point A F}
    (hp : p ∈ remaining start stop d) : stop < d.time + p.time :=
  mem_dropWhile_gt (fun p : Point A F => d.time + p.time) stop (fromStart_good h start) hp

theorem remaining_sub {start stop : Int} {d : Pending A O F} : (remaining start stop d).Sublist d.points :=
  (List.dropWhile_sublist _).trans (List.dropWhile_sublist _)

/-- What a crop takes from one sensor and what it leaves. -/
theorem split_pending {start stop : Int} {d : Pending A O F} (h : GoodPending d) :
    (carried d).filter (fun p => decide (start ≤ p.time)) =
      carried { d with points := overlap start stop d } ++ carried { d with points := remaining start stop d } := by
  have hs : d.points.Pairwise (fun a b => d.time + a.time ≤ d.time + b.time) := h.1.imp (fun hab => by omega)
  simp only [carried]
  rw [← List.map_append, show overlap start stop d ++ remaining start stop d = fromStart start d from
    List.takeWhile_append_dropWhile, fromStart, dropWhile_eq_filter (fun p : Point A F => d.time + p.time) start hs,
    List.filter_map]
  rfl

/-- The message a crop leaves, if any. -/
def leave (start stop : Int) (e : Int × Pending A O F) : Option (Int × Pending A O F) :=
  match remaining start stop e.2 with
  | [] => none
  | ps => some (e.1, { e.2 with points := ps })

theorem cropLoop_pending (start stop : Int) (l : List (Int × Pending A O F)) (r : Scan A O F) :
    (cropLoop start stop l r).2 = l.filterMap (leave start stop) := by
  induction l generalizing r with
  | nil => rfl
  | cons e l ih =>
    obtain ⟨k, d⟩ := e
    rw [show cropLoop start stop ((k, d) :: l) r =
      (match remaining start stop d with
        | [] => cropLoop start stop l (copyOverlap start stop r d)
        | ps => ((cropLoop start stop l (copyOverlap start stop r d)).1,
            (k, { d with points := ps }) :: (cropLoop start stop l (copyOverlap start stop r d)).2)) from rfl]
    rw [List.filterMap_cons]
    simp only [leave]
    cases hr : remaining start stop d with
    | nil => simpa [hr] using ih _
    | cons p ps => simp [ih]

theorem cropLoop_scan_cons (start stop : Int) (k : Int) (d : Pending A O F) (l : List (Int × Pending A O F))
    (r : Scan A O F) :
    (cropLoop start stop ((k, d) :: l) r).1 = (cropLoop start stop l (copyOverlap start stop r d)).1 := by
  rw [show cropLoop start stop ((k, d) :: l) r =
      (match remaining start stop d with
        | [] => cropLoop start stop l (copyOverlap start stop r d)
        | ps => ((cropLoop start stop l (copyOverlap start stop r d)).1,
            (k, { d with points := ps }) :: (cropLoop start stop l (copyOverlap start stop r d)).2)) from rfl]
  cases remaining start stop d <;> rfl

def ValidScan (r : Scan A O F) : Prop := ∀ q ∈ r.ranges, q.originIndex < r.origins.length

theorem copyOverlap_spec (start stop : Int) {r : Scan A O F} (d : Pending A O F) (hv : ValidScan r)
    (ht : r.time = stop) :
    ValidScan (copyOverlap start stop r d) ∧ (copyOverlap start stop r d).time = stop ∧
      delivered (copyOverlap start stop r d) = delivered r ++ carried { d with points := overlap start stop d } := by
  unfold copyOverlap
  cases ho : overlap start stop d with
  | nil => exact ⟨hv, ht, by simp [carried]⟩
  | cons p ps =>
    simp only
    generalize p :: ps = ov
    refine ⟨?_, ht, ?_⟩
    · intro q hq
      simp only [List.mem_append, List.mem_map, List.length_append, List.length_singleton] at hq ⊢
      rcases hq with hq | ⟨p, _, rfl⟩
      · have := hv q hq
        omega
      · simp
    · simp only [delivered, List.filterMap_append]
      congr 1
      · apply List.filterMap_congr
        intro q hq
        rw [List.getElem?_append_left (hv q hq)]
      · rw [List.filterMap_map]
        simp only [carried]
        rw [← List.filterMap_eq_map]
        apply List.filterMap_congr
        intro p _
        simp [ht]
        omega

theorem cropLoop_scan (start stop : Int) (l : List (Int × Pending A O F)) {r : Scan A O F} (hv : ValidScan r)
    (ht : r.time = stop) :
    ValidScan (cropLoop start stop l r).1 ∧ (cropLoop start stop l r).1.time = stop ∧
      delivered (cropLoop start stop l r).1 =
        delivered r ++ l.flatMap (fun e => carried { e.2 with points := overlap start stop e.2 }) := by
  induction l generalizing r with
  | nil => exact ⟨hv, ht, by simp [cropLoop]⟩
  | cons e l ih =>
    obtain ⟨k, d⟩ := e
    obtain ⟨h1, h2, h3⟩ := copyOverlap_spec start stop d hv ht
    obtain ⟨g1, g2, g3⟩ := ih h1 h2
    rw [cropLoop_scan_cons]
    exact ⟨g1, g2, by rw [g3, h3]; simp⟩

theorem flatMap_leave (start stop : Int) (l : List (Int × Pending A O F)) :
    (l.filterMap (leave start stop)).flatMap (fun e => carried e.2) =
      l.flatMap (fun e => carried { e.2 with points := remaining start stop e.2 }) := by
  induction l with
  | nil => rfl
  | cons e l ih =>
    rw [List.filterMap_cons, List.flatMap_cons, ← ih]
    simp only [leave]
    cases hr : remaining start stop e.2 with
    | nil => simp [carried]
    | cons p ps => simp

theorem flatMap_split (start stop : Int) {l : List (Int × Pending A O F)} (h : ∀ e ∈ l, GoodPending e.2) :
    ((l.flatMap (fun e => carried e.2)).filter (fun p => decide (start ≤ p.time))).Perm
      (l.flatMap (fun e => carried { e.2 with points := overlap start stop e.2 }) ++
        l.flatMap (fun e => carried { e.2 with points := remaining start stop e.2 })) := by
  induction l with
  | nil => exact List.Perm.refl _
  | cons e l ih =>
    have ih := ih (fun x hx => h x (List.mem_cons_of_mem _ hx))
    simp only [List.flatMap_cons, List.filter_append]
    rw [split_pending (stop := stop) (h e (List.mem_cons_self ..))]
    refine (ih.append_left _).trans ?_
    simp only [List.append_assoc]
    refine List.Perm.append_left _ ?_
    rw [← List.append_assoc, ← List.append_assoc]
    exact (List.perm_append_comm).append_right _

theorem mem_delivered_of_valid {r : Scan A O F} (hv : ValidScan r) {q : Measurement A F} (hq : q ∈ r.ranges) :
    ∃ p ∈ delivered r, p.time = r.time + q.time := by
  have := hv q hq
  refine ⟨⟨q.position, r.time + q.time, q.intensity, r.origins[q.originIndex]⟩, ?_, rfl⟩
  simp only [delivered, List.mem_filterMap]
  exact ⟨q, hq, by simp [this]⟩

/-- Everything a crop does. -/
theorem crop_spec {sort : List (Measurement A F) → List (Measurement A F)} (hsort : IsSort sort) {s : State A O F}
    (hk : SMap.Sorted s.pending) (hg : ∀ e ∈ s.pending, GoodPending e.2)
    {s' : State A O F} {r : Scan A O F} (h : cropAndMerge sort s = (s', r)) :
    s'.currentEnd = s.currentEnd ∧ s'.currentStart = s.currentStart ∧ r.time = s.currentEnd ∧ ValidScan r ∧
    r.ranges.Pairwise (fun a b => a.time ≤ b.time) ∧
    (∀ q ∈ r.ranges, s.currentStart ≤ r.time + q.time ∧ q.time ≤ 0) ∧
    ((s.pending.flatMap (fun e => carried e.2)).filter (fun p => decide (s.currentStart ≤ p.time))).Perm
      (delivered r ++ buffered s') ∧
    SMap.Sorted s'.pending ∧
    (∀ e ∈ s'.pending, GoodPending e.2 ∧ s.currentEnd < e.2.time) ∧
    (∀ e ∈ s'.pending, ∃ d, (e.1, d) ∈ s.pending ∧ e.2.time = d.time) ∧
    (∀ k d, (k, d) ∈ s.pending → d.time ≤ s.currentEnd → SMap.get? k s'.pending = none) := by
  simp only [cropAndMerge, Prod.mk.injEq] at h
  obtain ⟨rfl, rfl⟩ := h
  obtain ⟨hv, ht, hd⟩ := cropLoop_scan s.currentStart s.currentEnd s.pending
    (r := (⟨s.currentEnd, [], []⟩ : Scan A O F)) (by intro q hq; cases hq) rfl
  have hp := cropLoop_pending s.currentStart s.currentEnd s.pending (⟨s.currentEnd, [], []⟩ : Scan A O F)
  generalize hout : cropLoop s.currentStart s.currentEnd s.pending (⟨s.currentEnd, [], []⟩ : Scan A O F) = out at hv ht hd hp
  obtain ⟨hperm, hsorted⟩ := hsort out.1.ranges
  have hd0 : delivered (⟨s.currentEnd, [], []⟩ : Scan A O F) = [] := rfl
  rw [hd0, List.nil_append] at hd
  have hv' : ValidScan { out.1 with ranges := sort out.1.ranges } := fun q hq => hv q (hperm.subset hq)
  have hdel : (delivered { out.1 with ranges := sort out.1.ranges }).Perm (delivered out.1) := by
    unfold delivered
    exact hperm.filterMap _
  have hmem : ∀ e ∈ out.2, ∃ d ps, (e.1, d) ∈ s.pending ∧ remaining s.currentStart s.currentEnd d = ps ∧ ps ≠ [] ∧
      e.2 = { d with points := ps } := by
    intro e he
    rw [hp, List.mem_filterMap] at he
    obtain ⟨x, hx, hle⟩ := he
    simp only [leave] at hle
    cases hr : remaining s.currentStart s.currentEnd x.2 with
    | nil => simp [hr] at hle
    | cons p ps =>
      simp only [hr, Option.some.injEq] at hle
      subst hle
      exact ⟨x.2, _, hx, hr, by simp, rfl⟩
  refine ⟨rfl, rfl, ht, hv', hsorted, ?_, ?_, ?_, ?_, ?_, ?_⟩
  · intro q hq
    obtain ⟨p, hpm, hpt⟩ := mem_delivered_of_valid hv' hq
    have hpm := hdel.subset hpm
    rw [hd, List.mem_flatMap] at hpm
    obtain ⟨e, he, hpe⟩ := hpm
    simp only [carried, List.mem_map] at hpe
    obtain ⟨x, hx, rfl⟩ := hpe
    have := overlap_times (hg e he) hx
    simp only [ht] at hpt ⊢
    omega
  · have hb : buffered ({ s with pending := out.2 } : State A O F) =
        s.pending.flatMap (fun e => carried { e.2 with points := remaining s.currentStart s.currentEnd e.2 }) := by
      simp only [buffered]
      rw [hp, flatMap_leave]
      apply List.filter_eq_self.2
      intro p hpm
      rw [List.mem_flatMap] at hpm
      obtain ⟨e, he, hpe⟩ := hpm
      simp only [carried, List.mem_map] at hpe
      obtain ⟨x, hx, rfl⟩ := hpe
      have := remaining_times (hg e he) hx
      simp only [decide_eq_true_eq]
      omega
    rw [hb]
    refine (flatMap_split s.currentStart s.currentEnd hg).trans ?_
    rw [← hd]
    exact hdel.symm.append_right _
  · simp only
    rw [hp]
    refine List.Pairwise.filterMap _ ?_ hk
    intro a b hab a' ha' b' hb'
    simp only [leave] at ha' hb'
    cases hra : remaining s.currentStart s.currentEnd a.2 <;> cases hrb : remaining s.currentStart s.currentEnd b.2 <;>
      simp_all
    obtain rfl := ha'
    obtain rfl := hb'
    exact hab
  · intro e he
    obtain ⟨d, ps, hm, hr, hne, hee⟩ := hmem e he
    have hgd := hg _ hm
    rw [hee]
    refine ⟨⟨?_, ?_⟩, ?_⟩
    · exact hr ▸ hgd.1.sublist remaining_sub
    · intro p hp
      exact hgd.2 p (remaining_sub.subset (hr ▸ hp))
    · obtain ⟨p, hp⟩ := List.exists_mem_of_ne_nil _ hne
      have h1 := remaining_times hgd (hr ▸ hp : p ∈ remaining s.currentStart s.currentEnd d)
      have h2 := hgd.2 p (remaining_sub.subset (hr ▸ hp))
      simp only at h1 h2 ⊢
      omega
  · intro e he
    obtain ⟨d, ps, hm, hr, hne, hee⟩ := hmem e he
    exact ⟨d, hm, by rw [hee]⟩
  · intro k d hkd hle
    rw [SMap.get?_eq_none]
    intro e he hek
    obtain ⟨d', ps, hm, hr, hne, hee⟩ := hmem e he
    rw [hek] at hm
    have h1 := SMap.get?_of_mem hk hkd
    have h2 := SMap.get?_of_mem hk hm
    rw [h1] at h2
    cases h2
    obtain ⟨p, hp⟩ := List.exists_mem_of_ne_nil _ hne
    have h1 := remaining_times (hg _ hkd) (hr ▸ hp : p ∈ remaining s.currentStart s.currentEnd d)
    have h2 := (hg _ hkd).2 p (remaining_sub.subset (hr ▸ hp))
    simp only at h1 h2
    omega

theorem put_perm {V : Type} {k : Int} {v : V} {l : List (Int × V)} (h : SMap.get? k l = none) :
    (SMap.put k v l).Perm ((k, v) :: l) := by
  induction l with
  | nil => exact List.Perm.refl _
  | cons e l ih =>
    obtain ⟨k', v'⟩ := e
    simp only [SMap.get?] at h
    split at h
    · cases h
    · rename_i hne
      simp only [SMap.put]
      split
      · exact List.Perm.refl _
      · exact ((ih h).cons _).trans (List.Perm.swap ..)

theorem emplace_none {V : Type} {k : Int} {v : V} {l : List (Int × V)} (h : SMap.get? k l = none) :
    emplace k v l = SMap.put k v l := by simp [emplace, h]

theorem oldest_spec (l : List (Int × Pending A O F)) :
    (∀ e ∈ l, oldest l ≤ e.2.time) ∧ oldest l ≤ timeMax ∧
      ∀ b, b ≤ timeMax → (∀ e ∈ l, b ≤ e.2.time) → b ≤ oldest l := by
  have key : ∀ (l : List (Int × Pending A O F)) (acc : Int),
      (∀ e ∈ l, l.foldl (fun acc e => min acc e.2.time) acc ≤ e.2.time) ∧
      l.foldl (fun acc e => min acc e.2.time) acc ≤ acc ∧
      ∀ b, b ≤ acc → (∀ e ∈ l, b ≤ e.2.time) → b ≤ l.foldl (fun acc e => min acc e.2.time) acc := by
    intro l
    induction l with
    | nil => intro acc; exact ⟨by simp, le_refl _, fun b hb _ => hb⟩
    | cons e l ih =>
      intro acc
      obtain ⟨h1, h2, h3⟩ := ih (min acc e.2.time)
      refine ⟨?_, ?_, ?_⟩
      · intro x hx
        rcases List.mem_cons.1 hx with rfl | hx
        · exact h2.trans (min_le_right _ _)
        · exact h1 x hx
      · exact h2.trans (min_le_left _ _)
      · intro b hb hall
        exact h3 b (le_min hb (hall e (List.mem_cons_self ..))) (fun x hx => hall x (List.mem_cons_of_mem _ hx))
  exact key l timeMax

/-- The invariant: `last` is a bound on the times of the messages so far. -/
structure Inv (s : State A O F) (last : Int) : Prop where
  sorted : SMap.Sorted s.pending
  pending : ∀ e ∈ s.pending, GoodPending e.2 ∧ s.currentEnd ≤ e.2.time ∧ e.2.time ≤ last
  endLe : s.currentEnd ≤ last
  lastMax : last ≤ timeMax

/-- What a scan returned by a call satisfies, given the end of the previous window. -/
structure GoodScan (prev : Int) (r : Scan A O F) : Prop where
  valid : ValidScan r
  sorted : r.ranges.Pairwise (fun a b => a.time ≤ b.time)
  upTo : ∀ q ∈ r.ranges, q.time ≤ 0
  after : ∀ q ∈ r.ranges, prev ≤ r.time + q.time
  forward : prev ≤ r.time

theorem filter_flatMap_put {k : Int} {v : Pending A O F} {l : List (Int × Pending A O F)} (h : SMap.get? k l = none)
    (b : Int) :
    (((SMap.put k v l).flatMap (fun e => carried e.2)).filter (fun p => decide (b ≤ p.time))).Perm
      ((carried v).filter (fun p => decide (b ≤ p.time)) ++
        (l.flatMap (fun e => carried e.2)).filter (fun p => decide (b ≤ p.time))) := by
  rw [← List.filter_append]
  have : ((k, v) :: l).flatMap (fun e => carried e.2) = carried v ++ l.flatMap (fun e => carried e.2) := by simp
  rw [← this]
  exact ((put_perm h).flatMap_right _).filter _

theorem step_spec {sort : List (Measurement A F) → List (Measurement A F)} (hsort : IsSort sort) {default : F}
    {expected : List Int} {s s' : State A O F} {last : Int} (hi : Inv s last) {id : Int} {m : Message A O F}
    (hm : GoodMessage m) (hl : last ≤ m.time) {r : Option (Scan A O F)}
    (h : addRangeData sort default expected s id m = some (s', r)) :
    Inv s' m.time ∧ s.currentEnd ≤ s'.currentEnd ∧
    (∀ x ∈ r, GoodScan s.currentEnd x ∧ x.time = s'.currentEnd) ∧
    ((arrived default m).filter (fun p => decide (windowStart s s' id ≤ p.time)) ++ buffered s).Perm
      (r.toList.flatMap delivered ++ buffered s') := by
  have hgm := good_resize (default := default) hm
  have htm : (resize default m).time = m.time := rfl
  unfold addRangeData at h
  split at h
  · cases hold : SMap.get? id s.pending with
    | some old =>
      simp only [hold, Option.some.injEq, Prod.mk.injEq] at h
      obtain ⟨hs, hr⟩ := h
      generalize hc : cropAndMerge sort { s with currentStart := s.currentEnd, currentEnd := old.time } = out at hs hr
      obtain ⟨s1, r1⟩ := out
      have hmem := SMap.mem_of_get? hold
      have hle := (hi.pending _ hmem).2
      obtain ⟨c1, c2, c3, c4, c5, c6, c7, c8, c9, c10, c11⟩ :=
        crop_spec (s := { s with currentStart := s.currentEnd, currentEnd := old.time }) hsort hi.sorted
          (fun e he => (hi.pending e he).1) hc
      simp only at c1 c2 c3 c6 c7 c9 c10 c11 hs hr hle
      have hnone := c11 id old hmem (le_refl _)
      rw [emplace_none hnone] at hs
      have he : s'.currentEnd = old.time := by rw [← hs]; exact c1
      have hp : s'.pending = SMap.put id (resize default m) s1.pending := by rw [← hs]
      refine ⟨⟨?_, ?_, ?_, hm.2.2.2⟩, by omega, ?_, ?_⟩
      · rw [hp]
        exact SMap.sorted_put c8
      · intro e hem
        rw [hp] at hem
        rcases SMap.mem_put hem with rfl | hem
        · exact ⟨hgm, by rw [he]; simp only [htm]; omega, le_refl _⟩
        · obtain ⟨d, hd, hdt⟩ := c10 e hem
          have := (hi.pending _ hd).2
          obtain ⟨g1, g2⟩ := c9 e hem
          exact ⟨g1, by omega, by simp only at this; omega⟩
      · omega
      · intro x hx
        rw [← hr] at hx
        cases hx
        exact ⟨⟨c4, c5, fun q hq => (c6 q hq).2, fun q hq => (c6 q hq).1, by omega⟩, by omega⟩
      · rw [← hr]
        have hw : windowStart s s' id = s'.currentEnd := by simp [windowStart, hold]
        rw [hw]
        have hb : (buffered s').Perm ((arrived default m).filter (fun p => decide (s'.currentEnd ≤ p.time)) ++ buffered s1) := by
          have := filter_flatMap_put (v := resize default m) hnone s'.currentEnd
          rw [carried_resize] at this
          unfold buffered
          rw [hp, show s1.currentEnd = s'.currentEnd by omega]
          exact this
        have hc7 : (buffered s).Perm (delivered r1 ++ buffered s1) := c7
        simp only [Option.toList_some, List.flatMap_cons, List.flatMap_nil, List.append_nil]
        refine (hc7.append_left _).trans ?_
        refine List.Perm.trans ?_ (hb.symm.append_left _)
        rw [← List.append_assoc, ← List.append_assoc]
        exact List.perm_append_comm.append_right _
    | none =>
      simp only [hold] at h
      rw [emplace_none hold] at h
      have hsrt : SMap.Sorted (SMap.put id (resize default m) s.pending) := SMap.sorted_put hi.sorted
      have hput := filter_flatMap_put (v := resize default m) hold s.currentEnd
      rw [carried_resize] at hput
      have hpend : ∀ e ∈ SMap.put id (resize default m) s.pending,
          GoodPending e.2 ∧ s.currentEnd ≤ e.2.time ∧ e.2.time ≤ m.time := by
        intro e he
        rcases SMap.mem_put he with rfl | he
        · exact ⟨hgm, by have := hi.endLe; simp only [htm]; omega, le_refl _⟩
        · obtain ⟨g1, g2, g3⟩ := hi.pending e he
          exact ⟨g1, g2, by omega⟩
      have hw : windowStart s s' id = s.currentEnd := by simp [windowStart, hold]
      rw [hw]
      split at h
      · simp only [Option.some.injEq, Prod.mk.injEq] at h
        obtain ⟨rfl, rfl⟩ := h
        refine ⟨⟨hsrt, hpend, ?_, hm.2.2.2⟩, le_refl _, by simp, ?_⟩
        · have := hi.endLe
          simp only
          omega
        · simp only [Option.toList_none, List.flatMap_nil, List.nil_append]
          exact hput.symm
      · simp only [Option.some.injEq, Prod.mk.injEq] at h
        obtain ⟨hs, hr⟩ := h
        have hmemnew : (id, resize default m) ∈ SMap.put id (resize default m) s.pending :=
          SMap.mem_of_get? (by rw [SMap.get?_put]; simp)
        generalize hpd : SMap.put id (resize default m) s.pending = pend at *
        obtain ⟨o1, o2, o3⟩ := oldest_spec pend
        have ho1 := o1 _ hmemnew
        simp only [htm] at ho1
        have ho3 := o3 s.currentEnd (by have := hi.endLe; have := hi.lastMax; omega) (fun e he => (hpend e he).2.1)
        generalize hc : cropAndMerge sort { pending := pend, currentStart := s.currentEnd, currentEnd := oldest pend } = out
          at hs hr
        obtain ⟨s1, r1⟩ := out
        obtain ⟨c1, c2, c3, c4, c5, c6, c7, c8, c9, c10, c11⟩ := crop_spec hsort hsrt (fun e he => (hpend e he).1) hc
        simp only at c1 c2 c3 c6 c7 c9 c10 c11 hs hr
        subst hs
        refine ⟨⟨c8, ?_, by omega, hm.2.2.2⟩, by omega, ?_, ?_⟩
        · intro e he
          obtain ⟨d, hd, hdt⟩ := c10 e he
          have := (hpend _ hd).2.2
          obtain ⟨g1, g2⟩ := c9 e he
          exact ⟨g1, by omega, by simp only at this; omega⟩
        · intro x hx
          rw [← hr] at hx
          cases hx
          exact ⟨⟨c4, c5, fun q hq => (c6 q hq).2, fun q hq => (c6 q hq).1, by omega⟩, by omega⟩
        · rw [← hr]
          simp only [Option.toList_some, List.flatMap_cons, List.flatMap_nil, List.append_nil]
          exact hput.symm.trans c7
  · cases h

/-! ### C27 -/

theorem run_spec {sort : List (Measurement A F) → List (Measurement A F)} (hsort : IsSort sort) {default : F}
    {expected : List Int} {calls : List (Int × Message A O F)} {s s' : State A O F} {last : Int} (hi : Inv s last)
    (hg : ∀ c ∈ calls, GoodMessage c.2) (ho : InOrder calls) (hl : ∀ c ∈ calls, last ≤ c.2.time)
    {scans : List (Scan A O F)} (h : run sort default expected s calls = some (s', scans)) :
    (∀ r ∈ scans, GoodScan s.currentEnd r) ∧
    scans.Pairwise (fun r r' => GoodScan r.time r') ∧
    (accepted sort default expected s calls ++ buffered s).Perm (scans.flatMap delivered ++ buffered s') := by
  induction calls generalizing s last scans with
  | nil =>
    simp only [run, Option.some.injEq, Prod.mk.injEq] at h
    obtain ⟨rfl, rfl⟩ := h
    exact ⟨by simp, List.Pairwise.nil, by simp [accepted]⟩
  | cons c calls ih =>
    obtain ⟨id, m⟩ := c
    simp only [run] at h
    cases ha : addRangeData sort default expected s id m with
    | none => simp [ha] at h
    | some p =>
      obtain ⟨s1, r1⟩ := p
      simp only [ha] at h
      cases hr : run sort default expected s1 calls with
      | none => simp [hr] at h
      | some q =>
        obtain ⟨s2, rs⟩ := q
        simp only [hr, Option.some.injEq, Prod.mk.injEq] at h
        obtain ⟨rfl, rfl⟩ := h
        have hm := hg _ (List.mem_cons_self ..)
        have hp := List.pairwise_cons.1 ho
        obtain ⟨h1, h2, h3, h4⟩ := step_spec hsort hi hm (hl _ (List.mem_cons_self ..)) ha
        obtain ⟨g1, g2, g3⟩ := ih h1 (fun c hc => hg c (List.mem_cons_of_mem _ hc)) hp.2 hp.1 hr
        refine ⟨?_, ?_, ?_⟩
        · intro r hrm
          rcases List.mem_append.1 hrm with hrm | hrm
          · exact (h3 r (by simpa using hrm)).1
          · have := g1 r hrm
            exact ⟨this.valid, this.sorted, this.upTo, fun q hq => h2.trans (this.after q hq), h2.trans this.forward⟩
        · rw [List.pairwise_append]
          refine ⟨?_, g2, ?_⟩
          · cases r1 <;> simp
          · intro a ham b hbm
            rw [(h3 a (by simpa using ham)).2]
            exact g1 b hbm
        · simp only [accepted, ha, List.flatMap_append]
          have e1 := g3.append_left (r1.toList.flatMap delivered)
          rw [List.append_assoc (r1.toList.flatMap delivered)]
          refine List.Perm.trans ?_ e1
          -- arrived ++ accepted ++ buffered s ~ delivered r1 ++ (accepted ++ buffered s1)
          rw [List.append_assoc]
          refine (List.Perm.append_left _ List.perm_append_comm).trans ?_
          rw [← List.append_assoc]
          refine (h4.append_right _).trans ?_
          rw [List.append_assoc]
          exact List.Perm.append_left _ List.perm_append_comm

theorem inv_init : Inv (init : State A O F) timeMin :=
  ⟨SMap.sorted_nil, by simp [init], by simp [init], by decide⟩

/-- C27: for messages handed over in the order of their times. Every scan is sorted by point time, has only points up to the
scan time with valid origins, all points of a later scan are not older than the time of an earlier scan (while, being up to
the scan time, those of the earlier one are not newer), and the measurements which were not older than the window start when
added are exactly (as multisets, with absolute time, intensity and origin) those delivered and those still buffered. -/
theorem scans_conserve_points_partial {sort : List (Measurement A F) → List (Measurement A F)} (hsort : IsSort sort)
    {default : F} {expected : List Int} {calls : List (Int × Message A O F)} {s : State A O F}
    (hg : ∀ c ∈ calls, GoodMessage c.2) (ho : InOrder calls)
    {scans : List (Scan A O F)} (h : run sort default expected init calls = some (s, scans)) :
    (∀ r ∈ scans, r.ranges.Pairwise (fun a b => a.time ≤ b.time) ∧
      ∀ q ∈ r.ranges, q.time ≤ 0 ∧ q.originIndex < r.origins.length) ∧
    scans.Pairwise (fun r r' => r.time ≤ r'.time ∧
      ∀ q ∈ r.ranges, ∀ q' ∈ r'.ranges, r.time + q.time ≤ r.time ∧ r.time ≤ r'.time + q'.time) ∧
    (accepted sort default expected init calls).Perm (scans.flatMap delivered ++ buffered s) := by
  obtain ⟨h1, h2, h3⟩ := run_spec hsort inv_init hg ho (fun c hc => (hg c hc).2.2.1) h
  have hb : buffered (init : State A O F) = [] := rfl
  rw [hb, List.append_nil] at h3
  have hall : scans.Pairwise (fun r r' => r ∈ scans ∧ GoodScan r.time r') := by
    rw [List.pairwise_iff_forall_sublist] at h2 ⊢
    intro a b hab
    exact ⟨hab.subset (by simp), h2 hab⟩
  refine ⟨fun r hr => ⟨(h1 r hr).sorted, fun q hq => ⟨(h1 r hr).upTo q hq, (h1 r hr).valid q hq⟩⟩, hall.imp ?_, h3⟩
  intro r r' hrr
  refine ⟨hrr.2.forward, fun q hq q' hq' => ⟨?_, hrr.2.after q' hq'⟩⟩
  have := (h1 r hrr.1).upTo q hq
  omega

/-- A sequence of calls aborts only if it names a sensor that was not announced to the constructor. -/
theorem run_total {sort : List (Measurement A F) → List (Measurement A F)} {default : F} {expected : List Int}
    {calls : List (Int × Message A O F)} {s : State A O F} (h : ∀ c ∈ calls, c.1 ∈ expected) :
    ∃ out, run sort default expected s calls = some out := by
  induction calls generalizing s with
  | nil => exact ⟨_, rfl⟩
  | cons c calls ih =>
    obtain ⟨id, m⟩ := c
    have hid := h _ (List.mem_cons_self ..)
    have : ∃ p, addRangeData sort default expected s id m = some p := by
      unfold addRangeData
      simp only at hid
      rw [if_pos hid]
      cases SMap.get? id s.pending with
      | some old => exact ⟨_, rfl⟩
      | none =>
        simp only
        split <;> exact ⟨_, rfl⟩
    obtain ⟨⟨s1, r1⟩, hp⟩ := this
    obtain ⟨⟨s2, rs⟩, hq⟩ := ih (s := s1) (fun c hc => h c (List.mem_cons_of_mem _ hc))
    exact ⟨(s2, r1.toList ++ rs), by simp [run, hp, hq]⟩

/-- Points are dropped only if a scan with a later time has been returned: with a window start below every point, nothing is. -/
theorem nothing_dropped {sort : List (Measurement A F) → List (Measurement A F)} {default : F} {expected : List Int}
    {s s' : State A O F} {id : Int} {m : Message A O F} {r : Option (Scan A O F)}
    (_ : addRangeData sort default expected s id m = some (s', r))
    (hw : ∀ q ∈ m.ranges, windowStart s s' id ≤ m.time + q.2) :
    (arrived default m).filter (fun p => decide (windowStart s s' id ≤ p.time)) = arrived default m := by
  apply List.filter_eq_self.2
  intro p hp
  simp only [arrived, List.mem_mapIdx] at hp
  obtain ⟨i, hi, rfl⟩ := hp
  simp only [decide_eq_true_eq]
  exact hw _ (List.getElem_mem hi)

/-! ### Concrete runs -/

/-- A concrete sorting function. -/
def byTime (l : List (Measurement A F)) : List (Measurement A F) := l.insertionSort (fun a b => a.time ≤ b.time)

theorem byTime_isSort : IsSort (byTime : List (Measurement A F) → List (Measurement A F)) := by
  intro l
  have : Std.Total (fun a b : Measurement A F => a.time ≤ b.time) := ⟨fun a b => le_total a.time b.time⟩
  have : IsTrans (Measurement A F) (fun a b => a.time ≤ b.time) := ⟨fun a b c hab hbc => le_trans hab hbc⟩
  exact ⟨List.perm_insertionSort _ l, List.pairwise_insertionSort _ l⟩

/-- Two sensors, the second one overlapping the first one's scans; positions are numbered, origins are 100 and 200. -/
def twoSensors : List (Int × Message Nat Nat Nat) :=
  [(0, ⟨10, 100, [(1, -4), (2, -2), (3, 0)], [7, 8, 9]⟩),
   (1, ⟨13, 200, [(11, -6), (12, -3), (13, 0)], [5]⟩),
   (0, ⟨20, 100, [(4, -12), (5, -5), (6, 0)], []⟩),
   (1, ⟨23, 200, [(14, -5), (15, 0)], []⟩)]

example : (∀ c ∈ twoSensors, GoodMessage c.2) ∧ InOrder twoSensors := by
  constructor
  · intro c hc
    simp only [twoSensors, List.mem_cons, List.not_mem_nil, or_false] at hc
    rcases hc with rfl | rfl | rfl | rfl <;> simp [GoodMessage, timeMin, timeMax]
  · simp [InOrder, twoSensors]

example : (run byTime 0 [0, 1] init twoSensors).map (fun o => o.2.map (fun r => (r.time, r.origins, r.ranges))) =
    some [(10, [100, 200],
        [⟨1, -4, 7, 0⟩, ⟨11, -3, 5, 1⟩, ⟨2, -2, 8, 0⟩, ⟨3, 0, 9, 0⟩, ⟨12, 0, 0, 1⟩]),
      (13, [200], [⟨13, 0, 0, 0⟩]),
      (20, [100, 200], [⟨5, -5, 0, 0⟩, ⟨14, -2, 0, 1⟩, ⟨6, 0, 0, 0⟩])] := by decide

/-- The second message of sensor 0 has a point (number 4, time 8) older than the scan ending at 10. -/
example : (accepted byTime 0 [0, 1] init twoSensors).length = 10 ∧
    ((run byTime 0 [0, 1] init twoSensors).map (fun o => buffered o.1)) = some [⟨15, 23, 0, 200⟩] := by decide

/-- Disagreement 1. If the messages of the sensors are only in order per sensor, the scan time can go back and the points of
consecutive scans overlap: here the scan ending at 10 contains points of times 9 and 10, and a later scan one of time 8. -/
def lateSensor : List (Int × Message Nat Nat Nat) :=
  [(0, ⟨10, 100, [(1, -1), (2, 0)], []⟩), (0, ⟨20, 100, [(3, 0)], []⟩), (1, ⟨5, 200, [(11, 0)], []⟩),
   (1, ⟨9, 200, [(12, -1), (13, 0)], []⟩)]

theorem per_sensor_order_is_not_enough :
    (∀ c ∈ lateSensor, GoodMessage c.2) ∧
    (∀ id, (lateSensor.filter (fun c => c.1 == id)).Pairwise (fun a b => a.2.time < b.2.time)) ∧
    ∃ s scans, run byTime 0 [0, 1] init lateSensor = some (s, scans) ∧
      ¬ scans.Pairwise (fun r r' => r.time ≤ r'.time) ∧
      ¬ scans.Pairwise (fun r r' => ∀ q ∈ r.ranges, ∀ q' ∈ r'.ranges, r.time + q.time ≤ r'.time + q'.time) := by
  refine ⟨?_, ?_, _, _, rfl, ?_, ?_⟩
  · intro c hc
    simp only [lateSensor, List.mem_cons, List.not_mem_nil, or_false] at hc
    rcases hc with rfl | rfl | rfl | rfl <;> simp [GoodMessage, timeMin, timeMax]
  · intro id
    by_cases h0 : (0 : Int) = id
    · subst h0
      decide
    · by_cases h1 : (1 : Int) = id
      · subst h1
        decide
      · simp [lateSensor, h0, h1]
  · decide
  · decide

/-- Disagreement 2. If a message has a point later than its own time (relative time above 0), then the next message of the same
sensor is silently lost: `emplace` on line 43 finds the old message still pending. -/
def futurePoint : List (Int × Message Nat Nat Nat) :=
  [(0, ⟨10, 100, [(1, 0), (2, 5)], []⟩), (0, ⟨20, 100, [(3, 0)], []⟩)]

theorem message_lost :
    InOrder futurePoint ∧ (∀ c ∈ futurePoint, c.2.ranges.Pairwise (fun a b => a.2 ≤ b.2)) ∧
    ∃ s scans, run byTime 0 [0, 1] init futurePoint = some (s, scans) ∧
      (⟨3, 20, 0, 100⟩ : Physical Nat Nat Nat) ∈ accepted byTime 0 [0, 1] init futurePoint ∧
      (⟨3, 20, 0, 100⟩ : Physical Nat Nat Nat) ∉ scans.flatMap delivered ++ buffered s := by
  refine ⟨by simp [InOrder, futurePoint], by simp [futurePoint], _, _, rfl, ?_, ?_⟩
  · decide
  · decide

end Verif.RangeCollator
