import Verif.Props.LocalTrajectoryBuilder2D

/-!
C64 and C65 for 3D. The times of the points are computed when enough scans are accumulated, and all poses then.
-/

namespace Verif.LocalBuilder

open Verif.Rigid

abbrev Matcher3 := Rigid3 → List V3 → List V3 → Option Rigid3

/-- What is assumed in addition for 3D: the voxel filter only selects points, and the scan matcher returns rotations. -/
structure Sound3 (E : Env) (es : List (Event Matcher3)) : Prop extends Sound E where
  selects : ∀ l, ∀ q ∈ E.filterRanges l, q ∈ l
  rotations : ∀ id m f, Event.range id m f ∈ es → ∀ pose low high p, Rigid3.Proper pose → f pose low high = some p → p.Proper

/-- The largest time so far, for each of the times. -/
def running : List Int → Option Int → List Int
  | [], _ => []
  | t :: l, prev => max t (prev.getD t) :: running l (some (max t (prev.getD t)))

/-- The outcome for a group of scans in 3D: the poses of all points and the one at the end are extrapolated one after the other, at
times that never decrease. -/
def Matched3 (E : Env) (g : List (Used Matcher3)) (out : Option Result) : Prop :=
  ∃ a current ext ext' ext'', g.getLast? = some a ∧ Rigid3.Proper current ∧
    Extrapolated E.params (fun _ t => t) (running (g.flatMap (fun b => pointTimes b.scan)) (ext.extrapolationTracker.map (·.time))) ext
      (g.flatMap (·.poses)) ext' ∧
    Extrapolator.extrapolatePose E.params ext' a.scan.time = .ok (current, ext'') ∧
    let returns := (E.filter (returnsOf E.opts (g.flatMap (·.rays)))).map current.inverse.apply
    let misses := (E.filter (missesOf E.opts E.opts.maxRange (g.flatMap (·.rays)))).map current.inverse.apply
    match out with
    | none => returns = [] ∨ E.adaptive returns = [] ∨ E.adaptiveLow returns = [] ∨
        a.matcher current (E.adaptiveLow returns) (E.adaptive returns) = none
    | some r => ∃ p, a.matcher current (E.adaptiveLow returns) (E.adaptive returns) = some p ∧ r.time = a.scan.time ∧
        r.pose = p ∧
        r.data = ⟨p.apply (current.inverse.apply current.translation), returns.map p.apply, misses.map p.apply⟩

/-- A scan after the voxel filter. -/
def filtered (E : Env) (x : Scan) : Scan := { x with ranges := E.filterRanges x.ranges }

/-! ### Times -/

theorem running_step (t : Int) (prev : Option Int) : (if before t prev then prev.getD t else t) = max t (prev.getD t) := by
  cases prev with
  | none => simp [before]
  | some u =>
    simp only [before, decide_eq_true_eq, Option.getD_some]
    split_ifs <;> omega

theorem hitTimes_running (time : Int) : ∀ (l : List Measurement) (prev : Option Int) (rest : List Int),
    running (l.map (fun q => time + q.time) ++ rest) prev = (hitTimes time l prev).1 ++ running rest (hitTimes time l prev).2
  | [], prev, rest => by simp [hitTimes]
  | q :: l, prev, rest => by
    simp only [List.map_cons, List.cons_append, running, hitTimes, running_step]
    rw [hitTimes_running time l]

theorem allHitTimes_running : ∀ (l : List Scan) (prev : Option Int),
    allHitTimes l prev = running (l.flatMap (fun x => x.ranges.map (fun q => x.time + q.time))) prev
  | [], prev => by simp [allHitTimes, running]
  | x :: l, prev => by
    rw [List.flatMap_cons, hitTimes_running]
    simp only [allHitTimes]
    rw [allHitTimes_running l]

theorem running_spec {stop : Int} : ∀ {l : List Int} {prev : Option Int}, (∀ t ∈ l, t ≤ stop) → (∀ u ∈ prev, u ≤ stop) →
    (running l prev).length = l.length ∧ (running l prev).Pairwise (· ≤ ·) ∧ (∀ t ∈ running l prev, t ≤ stop) ∧
    (∀ u ∈ prev, ∀ t ∈ running l prev, u ≤ t) ∧ ∀ b, (∀ t ∈ l, b ≤ t) → ∀ t ∈ running l prev, b ≤ t
  | [], prev, _, _ => by simp [running]
  | t :: l, prev, hl, hp => by
    unfold running
    have hu : max t (prev.getD t) ≤ stop ∧ t ≤ max t (prev.getD t) ∧ ∀ u ∈ prev, u ≤ max t (prev.getD t) := by
      have := hl t (by simp)
      cases prev with
      | none => simp [this]
      | some u =>
        have := hp u rfl
        simp only [Option.getD_some, Option.mem_some_iff, forall_eq']
        omega
    generalize max t (prev.getD t) = u at hu ⊢
    obtain ⟨h1, h2, h3, h4, h5⟩ := running_spec (stop := stop) (l := l) (prev := some u) (fun x hx => hl x (by simp [hx]))
      (by simpa using hu.1)
    have h4 := h4 u rfl
    refine ⟨by simp [h1], List.pairwise_cons.2 ⟨h4, h2⟩, ?_, ?_, ?_⟩
    · intro x hx
      rcases List.mem_cons.1 hx with rfl | hx
      · exact hu.1
      · exact h3 x hx
    · intro v hv x hx
      have := hu.2.2 v hv
      rcases List.mem_cons.1 hx with rfl | hx
      · exact this
      · exact this.trans (h4 x hx)
    · intro b hb x hx
      rcases List.mem_cons.1 hx with rfl | hx
      · exact (hb t (by simp)).trans hu.2.1
      · exact h5 b (fun y hy => hb y (by simp [hy])) x hx

theorem posesAt_good {P : Extrapolator.Params} (hF : Extrapolator.TwoVectors P.fromTwoVectors) {time last bound lo : Int}
    (hb : bound ≤ time) : ∀ {ts : List Int} {ext : Extrapolator.State}, ExtInv ext last bound lo →
    (∀ u ∈ lastExtrapolated ext, u ≤ time) → ts.Pairwise (· ≤ ·) → (∀ t ∈ ts, t ≤ time) →
    (∀ u ∈ lastExtrapolated ext, ∀ t ∈ ts, u ≤ t) → (∀ p ∈ Extrapolator.newest ext, ∀ t ∈ ts, p.time ≤ t) →
    (∃ poses ext', posesAt P ts ext = .ok (poses, ext') ∧ poses.length = ts.length ∧ (∀ p ∈ poses, p.Proper) ∧
      ExtInv ext' last time lo ∧ Extrapolator.newest ext' = Extrapolator.newest ext ∧ ∀ u ∈ lastExtrapolated ext', u ≤ time) ∨
    posesAt P ts ext = .error .gravity
  | [], ext, h, hu, _, _, _, _ => Or.inl ⟨[], ext, rfl, rfl, by simp, h.mono (le_refl _) hb (le_refl _), rfl, hu⟩
  | t :: ts, ext, h, hu, hs, ht, hut, hp => by
    rw [List.pairwise_cons] at hs
    have htt := ht t (by simp)
    unfold posesAt
    rcases extrapolate_good hF h (t := t) (fun p hn => hp p hn t (by simp)) (fun u hu' => hut u hu' t (by simp)) with
      ⟨pose, ext1, h1, hpp, hi1, hn1, hu1⟩ | h1
    · rw [h1]
      rcases posesAt_good (ts := ts) hF (bound := max bound t) (max_le hb htt) hi1 (fun u hu' => (hu1 u hu').trans htt) hs.2
        (fun x hx => ht x (by simp [hx])) (fun u hu' x hx => (hu1 u hu').trans (hs.1 x hx))
        (by rw [hn1]; exact fun p hn x hx => hp p hn x (by simp [hx])) with ⟨poses, ext2, h2, hl2, hp2, hi2, hn2, hu2⟩ | h2
      · left
        refine ⟨pose :: poses, ext2, ?_, by simp [hl2], ?_, hi2, hn2.trans hn1, hu2⟩
        · simp only [bind, Except.bind]
          rw [h2]
        · intro p hp'
          rcases List.mem_cons.1 hp' with rfl | hp'
          · exact hpp
          · exact hp2 p hp'
      · right
        simp only [bind, Except.bind]
        rw [h2]
    · right
      rw [h1]
      rfl

theorem posesAt_extrapolated {P : Extrapolator.Params} : ∀ {ts : List Int} {ext ext' : Extrapolator.State} {poses : List Rigid3},
    posesAt P ts ext = .ok (poses, ext') → Extrapolated P (fun _ t => t) ts ext poses ext'
  | [], ext, ext', poses, h => by
    cases h
    exact .nil _
  | t :: ts, ext, ext', poses, h => by
    unfold posesAt at h
    simp only [Extrapolator.bind_ok] at h
    obtain ⟨⟨pose, ext1⟩, h1, ⟨poses1, ext2⟩, h2, h3⟩ := h
    cases h3
    exact .cons h1 (posesAt_extrapolated h2)

/-! ### Rays -/

/-- Gives each scan its poses. -/
def distribute : List (Scan × Matcher3) → List Rigid3 → List (Used Matcher3)
  | [], _ => []
  | x :: l, poses => ⟨x.1, poses.take x.1.ranges.length, x.2⟩ :: distribute l (poses.drop x.1.ranges.length)

/-- The number of points. -/
def total (l : List (Scan × Matcher3)) : Nat := (l.map (fun x => x.1.ranges.length)).sum

theorem distribute_scans : ∀ (l : List (Scan × Matcher3)) (poses : List Rigid3),
    (distribute l poses).map (·.scan) = l.map (·.1) ∧ (distribute l poses).length = l.length
  | [], _ => ⟨rfl, rfl⟩
  | x :: l, poses => by
    obtain ⟨h1, h2⟩ := distribute_scans l (poses.drop x.1.ranges.length)
    exact ⟨by simp [distribute, h1], by simp [distribute, h2]⟩

theorem distribute_last : ∀ {l : List (Scan × Matcher3)} {x : Scan × Matcher3} (poses : List Rigid3), l.getLast? = some x →
    ∃ a, (distribute l poses).getLast? = some a ∧ a.scan = x.1 ∧ a.matcher = x.2
  | [y], x, poses, h => by
    cases h
    exact ⟨_, rfl, rfl, rfl⟩
  | y :: z :: l, x, poses, h => by
    rw [List.getLast?_cons_cons] at h
    obtain ⟨a, h1, h2⟩ := distribute_last (poses.drop y.1.ranges.length) h
    refine ⟨a, ?_, h2⟩
    rw [← h1]
    simp only [distribute]
    rw [List.getLast?_cons_cons]

theorem distribute_ok : ∀ {l : List (Scan × Matcher3)} {poses : List Rigid3}, (∀ p ∈ poses, p.Proper) → total l ≤ poses.length →
    ∀ a ∈ distribute l poses, a.Ok
  | [], _, _, _ => by simp [distribute]
  | x :: l, poses, hp, ht => by
    have ht' : x.1.ranges.length + total l ≤ poses.length := by simpa [total] using ht
    intro a ha
    rcases List.mem_cons.1 ha with rfl | ha
    · refine ⟨by simp; omega, fun p hp' => hp p (List.mem_of_mem_take hp')⟩
    · exact distribute_ok (fun p hp' => hp p (List.mem_of_mem_drop hp')) (by rw [List.length_drop]; omega) a ha

theorem distribute_poses : ∀ {l : List (Scan × Matcher3)} {poses : List Rigid3}, total l ≤ poses.length →
    (distribute l poses).flatMap (·.poses) = poses.take (total l)
  | [], poses, _ => by simp [distribute, total]
  | x :: l, poses, h => by
    have e : total (x :: l) = x.1.ranges.length + total l := by simp [total]
    rw [e] at h ⊢
    simp only [distribute, List.flatMap_cons]
    rw [distribute_poses (by rw [List.length_drop]; omega), List.take_add]

theorem distribute_times {l : List (Scan × Matcher3)} {poses : List Rigid3} :
    (distribute l poses).flatMap (fun b => pointTimes b.scan) = (l.map (·.1)).flatMap pointTimes := by
  rw [← (distribute_scans l poses).1, List.flatMap_map]

theorem zip_take {α β : Type} : ∀ (a : List α) (b : List β), a.zip (b.take a.length) = a.zip b
  | [], b => by simp
  | x :: a, [] => by simp
  | x :: a, y :: b => by simp [zip_take a b]

theorem addScans_spec {o : Options} : ∀ {l : List (Scan × Matcher3)} {poses : List Rigid3} {acc : RangeData},
    (∀ p ∈ poses, p.Proper) → (∀ x ∈ l, ∀ q ∈ x.1.ranges, q.originIndex < x.1.origins.length) → total l ≤ poses.length →
    addScans o (l.map (·.1)) poses acc = .ok (⟨acc.origin,
      acc.returns ++ returnsOf o ((distribute l poses).flatMap (·.rays)),
      acc.misses ++ missesOf o o.maxRange ((distribute l poses).flatMap (·.rays))⟩, poses.drop (total l))
  | [], poses, acc, _, _, _ => by simp [addScans, distribute, total, returnsOf, missesOf]
  | x :: l, poses, acc, hp, hv, ht => by
    have ht' : x.1.ranges.length + total l ≤ poses.length := by simpa [total] using ht
    simp only [List.map_cons, addScans]
    rw [if_neg (by omega), addHits_spec (fun y hy => hp y.2 (List.of_mem_zip hy).2)
      (fun y hy => hv x (by simp) y.1 (List.of_mem_zip hy).1)]
    simp only [bind, Except.bind]
    rw [addScans_spec (fun p hp' => hp p (List.mem_of_mem_drop hp')) (fun y hy => hv y (by simp [hy]))
      (by rw [List.length_drop]; omega)]
    have hr : (⟨x.1, poses.take x.1.ranges.length, x.2⟩ : Used Matcher3).rays = (x.1.ranges.zip poses).filterMap
        (fun y => (x.1.origins[y.1.originIndex]?).map (fun a => ⟨a, y.1.position, y.2⟩)) := by
      unfold Used.rays
      simp only [zip_take]
    simp only [distribute, List.flatMap_cons, hr, returnsOf_append, missesOf_append, List.append_assoc, List.drop_drop]
    have : total (x :: l) = x.1.ranges.length + total l := by simp [total]
    rw [this]

/-! ### One scan -/

/-- A scan that waits: its points are not before the newest pose. -/
structure Waiting (ext : Extrapolator.State) (stop : Int) (x : Scan) : Prop where
  valid : ∀ q ∈ x.ranges, q.originIndex < x.origins.length
  upTo : ∀ q ∈ x.ranges, q.time ≤ 0
  after : ∀ q ∈ x.ranges, ∀ p ∈ Extrapolator.newest ext, p.time ≤ x.time + q.time
  before : x.time ≤ stop

theorem matchScan3_good {E : Env} (hE : Sound E) {f : Matcher3}
    (hf : ∀ pose low high p, Rigid3.Proper pose → f pose low high = some p → p.Proper) {time last lo : Int} {d : RangeData}
    {current : Rigid3} (hc : current.Proper) {ext : Extrapolator.State} (h : ExtInv ext last time lo)
    (hp : ∀ p ∈ Extrapolator.newest ext, p.time ≤ time) (hl : time ≤ last) :
    (∃ ext' out, matchScan3 E f time d current ext = .ok (ext', out) ∧ ExtInv ext' last time lo ∧
      (∀ p ∈ Extrapolator.newest ext', p.time ≤ time) ∧
      match out with
      | none => d.returns = [] ∨ E.adaptive d.returns = [] ∨ E.adaptiveLow d.returns = [] ∨
          f current (E.adaptiveLow d.returns) (E.adaptive d.returns) = none
      | some r => ∃ p, f current (E.adaptiveLow d.returns) (E.adaptive d.returns) = some p ∧ r = ⟨time, p, transform p d⟩) ∨
    matchScan3 E f time d current ext = .error (.extrapolator .gravity) := by
  unfold matchScan3
  split
  · rename_i he
    exact Or.inl ⟨ext, none, rfl, h, hp, Or.inl (List.isEmpty_iff.1 he)⟩
  · split
    · rename_i he
      exact Or.inl ⟨ext, none, rfl, h, hp, Or.inr (Or.inl (List.isEmpty_iff.1 he))⟩
    · split
      · rename_i he
        exact Or.inl ⟨ext, none, rfl, h, hp, Or.inr (Or.inr (Or.inl (List.isEmpty_iff.1 he)))⟩
      · split
        · rename_i hm
          exact Or.inl ⟨ext, none, rfl, h, hp, Or.inr (Or.inr (Or.inr hm))⟩
        · rename_i p hm
          rcases addPose_good hE.twoVectors hE.duration h (pose := p) hp hl (hf _ _ _ _ hc hm) with ⟨ext2, h2, hi2, hn2⟩ | h2
          · rw [h2]
            refine Or.inl ⟨ext2, _, rfl, hi2, ?_, p, hm, rfl⟩
            rw [hn2]
            intro q hq
            cases hq
            exact le_refl _
          · rw [h2]
            exact Or.inr rfl

theorem matchAll3_good {E : Env} (hE : Sound E) {f : Matcher3}
    (hf : ∀ pose low high p, Rigid3.Proper pose → f pose low high = some p → p.Proper) {last prev lo : Int}
    {ext : Extrapolator.State} (h : ExtInv ext last prev lo) {l : List (Scan × Matcher3)} {x : Scan}
    (hlast : l.getLast? = some (x, f)) (hw : ∀ y ∈ l, Waiting ext x.time y.1) (hprev : prev ≤ x.time)
    (hp : ∀ p ∈ Extrapolator.newest ext, p.time ≤ x.time) (hl : x.time ≤ last) :
    (∃ ext' out poses, matchAll3 E f (l.map (·.1)) ext = .ok (ext', out) ∧ ExtInv ext' last x.time lo ∧
      (∀ p ∈ Extrapolator.newest ext', p.time ≤ x.time) ∧ (∀ a ∈ distribute l poses, a.Ok) ∧
      Matched3 E (distribute l poses) out) ∨
    matchAll3 E f (l.map (·.1)) ext = .error (.extrapolator .gravity) := by
  have hut : ∀ u ∈ lastExtrapolated ext, u ≤ x.time := by
    intro u hu
    rcases h.extrapolated u hu with h1 | ⟨p, hn, rfl⟩
    · exact h1.trans hprev
    · exact hp p hn
  have htimes : ∀ t ∈ (l.map (·.1)).flatMap (fun x => x.ranges.map (fun q => x.time + q.time)), t ≤ x.time ∧
      ∀ p ∈ Extrapolator.newest ext, p.time ≤ t := by
    intro t ht
    simp only [List.mem_flatMap, List.mem_map] at ht
    obtain ⟨_, ⟨y, hy, rfl⟩, q, hq, rfl⟩ := ht
    have hwy := hw y hy
    have h1 := hwy.upTo q hq
    have h2 := hwy.before
    exact ⟨by omega, hwy.after q hq⟩
  have htot : ((l.map (·.1)).flatMap (fun x => x.ranges.map (fun q => x.time + q.time))).length = total l := by
    simp [List.length_flatMap, total, Function.comp_def]
  obtain ⟨c1, c2, c3, c4, c5⟩ := running_spec (stop := x.time) (fun t ht => (htimes t ht).1) hut
  rw [← allHitTimes_running] at c1 c2 c3 c4 c5
  have hne : (l.map (·.1)).getLast? = some x := by rw [List.getLast?_map, hlast]; rfl
  unfold matchAll3
  rw [hne]
  simp only
  rcases posesAt_good hE.twoVectors hprev h hut c2 c3 c4 (fun p hn => c5 p.time (fun t ht => (htimes t ht).2 p hn)) with
    ⟨poses, ext1, h1, hlen, hproper, hi1, hn1, hu1⟩ | h1
  · rw [h1]
    simp only [lift, bind, Except.bind]
    have hp1 : ∀ p ∈ Extrapolator.newest ext1, p.time ≤ x.time := by rw [hn1]; exact hp
    rcases extrapolate_good hE.twoVectors hi1 hp1 hu1 with ⟨current, ext2, h2, hcp, hi2, hn2, hu2⟩ | h2
    · rw [h2]
      simp only
      rw [max_self] at hi2
      have hp2 : ∀ p ∈ Extrapolator.newest ext2, p.time ≤ x.time := by rw [hn2]; exact hp1
      rcases gravity_good hE.twoVectors hi2 hp2 with ⟨q, hq, -⟩ | hq
      · rw [hq]
        simp only
        have hall : ∀ p ∈ poses ++ [current], p.Proper := by
          intro p hp'
          rcases List.mem_append.1 hp' with hp' | hp'
          · exact hproper p hp'
          · rw [List.mem_singleton] at hp'
            rw [hp']
            exact hcp
        have hpl : (poses ++ [current]).length = total l + 1 := by
          rw [List.length_append, hlen, c1, htot]
          rfl
        rw [addScans_spec hall (fun y hy => (hw y hy).valid) (by omega)]
        simp only [List.nil_append]
        rw [if_pos (by rw [List.length_drop, hpl]; omega)]
        rcases matchScan3_good hE hf (d := transform current.inverse ⟨current.translation,
            E.filter (returnsOf E.opts ((distribute l (poses ++ [current])).flatMap (·.rays))),
            E.filter (missesOf E.opts E.opts.maxRange ((distribute l (poses ++ [current])).flatMap (·.rays)))⟩) hcp hi2 hp2 hl with
          ⟨ext3, out, h3, hi3, hp3, hout⟩ | h3
        · refine Or.inl ⟨ext3, out, poses ++ [current], h3, hi3, hp3, distribute_ok hall (by omega), ?_⟩
          obtain ⟨a, ha1, ha2, ha3⟩ := distribute_last (poses ++ [current]) hlast
          refine ⟨a, current, ext, ext1, ext2, ha1, hcp, ?_, ?_, ?_⟩
          · rw [distribute_times, distribute_poses (by omega)]
            have e1 : (poses ++ [current]).take (total l) = poses := by
              rw [List.take_append_of_le_length (by omega), List.take_of_length_le (by omega)]
            rw [e1]
            have e2 := posesAt_extrapolated h1
            rw [allHitTimes_running] at e2
            exact e2
          · rw [ha2]
            exact h2
          rw [ha2, ha3]
          cases out with
          | none => exact hout
          | some r =>
            obtain ⟨p, hp', rfl⟩ := hout
            exact ⟨p, hp', rfl, rfl, rfl⟩
        · exact Or.inr h3
      · rw [hq]
        exact Or.inr rfl
    · rw [h2]
      exact Or.inr rfl
  · rw [h1]
    exact Or.inr rfl

/-- Between two calls. -/
structure Inv3 (E : Env) (s : State3) (last lo : Int) (scans : List Scan) (results : List Result) (dropped used : List Scan)
    (groups : List (List (Used Matcher3))) (rest : List (Scan × Matcher3)) (outs : List (Option Result)) : Prop where
  collator : RangeCollator.Inv s.collator last
  ext : ∀ ext ∈ s.ext, ExtInv ext last s.collator.currentEnd lo
  nonempty : scans.filter (fun x => !x.ranges.isEmpty) = dropped ++ used
  taken : used.map (filtered E) = groups.flatten.map (·.scan) ++ rest.map (·.1)
  ok : ∀ a ∈ groups.flatten, a.Ok
  size : ∀ g ∈ groups, g.length = max 1 E.opts.numAccumulated
  pending : rest.length = s.numAccumulated
  few : s.numAccumulated < max 1 E.opts.numAccumulated
  accumulated : s.numAccumulated ≠ 0 → s.accumulated = rest.map (·.1)
  waiting : ∀ x ∈ rest, ∀ ext ∈ s.ext, Waiting ext s.collator.currentEnd x.1
  produced : outs.filterMap id = results
  matched : List.Forall₂ (Matched3 E) groups outs
  started : s.ext = none → used = []
  current : used ≠ [] → ∀ ext ∈ s.ext, ∀ p ∈ Extrapolator.newest ext, p.time ≤ s.collator.currentEnd

theorem inv3_init (E : Env) (lo : Int) : Inv3 E {} RangeCollator.timeMin lo [] [] [] [] [] [] [] :=
  ⟨RangeCollator.inv_init, by simp, rfl, rfl, by simp, by simp, rfl, by simp, by simp, by simp, rfl, .nil, by simp, by simp⟩

theorem Waiting.mono {ext ext' : Extrapolator.State} {stop stop' : Int} {x : Scan} (h : Waiting ext stop x) (h1 : stop ≤ stop')
    (h2 : Extrapolator.newest ext' = Extrapolator.newest ext) : Waiting ext' stop' x :=
  ⟨h.valid, h.upTo, by rw [h2]; exact h.after, h.before.trans h1⟩

/-- The extrapolator changes but not its newest pose. -/
theorem Inv3.setExt {E : Env} {s : State3} {last last' lo lo' : Int} {scans : List Scan} {results : List Result}
    {dropped used : List Scan} {groups : List (List (Used Matcher3))} {rest : List (Scan × Matcher3)} {outs : List (Option Result)}
    (h : Inv3 E s last lo scans results dropped used groups rest outs) {ext ext' : Extrapolator.State} (hs : s.ext = some ext)
    (h1 : ExtInv ext' last' s.collator.currentEnd lo') (hn : Extrapolator.newest ext' = Extrapolator.newest ext)
    (hl : last ≤ last') (hmax : last' ≤ RangeCollator.timeMax) :
    Inv3 E { s with ext := some ext' } last' lo' scans results dropped used groups rest outs := by
  refine ⟨collator_mono h.collator hl hmax, by simpa using h1, h.nonempty, h.taken, h.ok, h.size, h.pending, h.few, h.accumulated,
    ?_, h.produced, h.matched, by simp, ?_⟩
  · intro x hx e he
    cases he
    exact (h.waiting x hx ext hs).mono (le_refl _) hn
  · intro hc e he
    cases he
    rw [hn]
    exact h.current hc ext hs

theorem step3_good {E : Env} (hE : Sound E) (hsel : ∀ l, ∀ q ∈ E.filterRanges l, q ∈ l) {s : State3} {last lo : Int}
    {scans : List Scan} {results : List Result} {dropped used : List Scan} {groups : List (List (Used Matcher3))}
    {rest : List (Scan × Matcher3)} {outs : List (Option Result)}
    (h : Inv3 E s last lo scans results dropped used groups rest outs) {e : Event Matcher3}
    (hl : last ≤ e.time) (hmax : e.time ≤ RangeCollator.timeMax)
    (hmsg : ∀ id m f, e = .range id m f → id ∈ E.expected ∧ RangeCollator.GoodMessage m)
    (hrot : ∀ id m f, e = .range id m f → ∀ pose low high p, Rigid3.Proper pose → f pose low high = some p → p.Proper)
    (hlo : ∀ d, e = .odometry d → lo < d.time) :
    (∃ s' r dropped' used' groups' rest' outs' new, step3 E s e = .ok (s', r) ∧
      collect E s.collator e = some (s'.collator, new) ∧
      Inv3 E s' e.time (odometryTime lo e) (scans ++ new) (results ++ r.toList) dropped' used' groups' rest' outs') ∨
    step3 E s e = .error (.extrapolator .gravity) := by
  cases e with
  | imu d =>
    simp only [Event.time] at hl hmax
    simp only [step3]
    cases hx : s.ext with
    | some ext =>
      obtain ⟨ext', h1, hi, hn⟩ := addImu_good (h.ext ext hx) hl
      simp only [bind, Except.bind, h1, lift]
      exact Or.inl ⟨_, none, dropped, used, groups, rest, outs, [], rfl, rfl, by simpa [Event.time, odometryTime] using h.setExt hx hi hn hl hmax⟩
    | none =>
      have hu := h.started hx
      have hrest : rest = [] := by
        have := h.taken
        rw [hu] at this
        simpa using (List.append_eq_nil_iff.1 this.symm).2
      rcases initialize_good hE.twoVectors d s.collator.currentEnd lo with ⟨ext, h1, hi⟩ | h1
      · simp only [bind, Except.bind, h1, lift]
        refine Or.inl ⟨_, none, dropped, used, groups, rest, outs, [], rfl, rfl, ?_⟩
        refine ⟨collator_mono h.collator hl hmax, by simpa [Event.time, odometryTime] using hi, by simpa using h.nonempty, h.taken, h.ok, h.size, h.pending, h.few,
          h.accumulated, by simp [hrest], by simpa using h.produced, h.matched, by simp, fun hc => absurd hu hc⟩
      · right
        simp only [bind, Except.bind, h1, lift]
  | odometry d =>
    simp only [Event.time] at hl hmax
    simp only [step3]
    cases hx : s.ext with
    | none =>
      refine Or.inl ⟨s, none, dropped, used, groups, rest, outs, [], rfl, rfl, ?_⟩
      exact ⟨collator_mono h.collator hl hmax, by rw [hx]; simp, by simpa using h.nonempty, h.taken, h.ok, h.size, h.pending, h.few,
        h.accumulated, h.waiting, by simpa using h.produced, h.matched, h.started, h.current⟩
    | some ext =>
      rcases addOdometry_good hE.twoVectors (h.ext ext hx) hl (hlo d rfl) with ⟨ext', h1, hi, hn⟩ | h1
      · simp only [bind, Except.bind, h1, lift]
        exact Or.inl ⟨_, none, dropped, used, groups, rest, outs, [], rfl, rfl, by simpa [Event.time, odometryTime] using h.setExt hx hi hn hl hmax⟩
      · right
        simp only [bind, Except.bind, h1, lift]
  | range id m f =>
    obtain ⟨hid, hm⟩ := hmsg id m f rfl
    have hf := hrot id m f rfl
    simp only [Event.time] at hl hmax
    simp only [step3, addRange3, collect]
    obtain ⟨⟨c, out⟩, hc⟩ : ∃ x, RangeCollator.addRangeData E.sort E.defaultIntensity E.expected s.collator id m = some x := by
      unfold RangeCollator.addRangeData
      rw [if_pos hid]
      split
      · exact ⟨_, rfl⟩
      · simp only
        split_ifs <;> exact ⟨_, rfl⟩
    obtain ⟨hci, hce, hcs, -⟩ := RangeCollator.step_spec hE.sort h.collator hm hl hc
    rw [hc]
    have hext : ∀ ext ∈ s.ext, ExtInv ext m.time c.currentEnd lo := fun ext hx => (h.ext ext hx).mono hl hce (le_refl _)
    have hwait : ∀ x ∈ rest, ∀ ext ∈ s.ext, Waiting ext c.currentEnd x.1 :=
      fun x hx ext he => (h.waiting x hx ext he).mono hce rfl
    have hcur : used ≠ [] → ∀ ext ∈ s.ext, ∀ p ∈ Extrapolator.newest ext, p.time ≤ c.currentEnd :=
      fun hc ext hx p hp => (h.current hc ext hx p hp).trans hce
    have hempty : ∀ new : List Scan, (∀ x ∈ new, x.ranges = []) →
        Inv3 E { s with collator := c } m.time lo (scans ++ new) (results ++ (none : Option Result).toList) dropped used groups rest
          outs := by
      intro new hnew
      refine ⟨hci, hext, ?_, h.taken, h.ok, h.size, h.pending, h.few, h.accumulated, hwait, by simpa using h.produced, h.matched,
        h.started, hcur⟩
      rw [List.filter_append, h.nonempty]
      have : new.filter (fun x => !x.ranges.isEmpty) = [] := by
        rw [List.filter_eq_nil_iff]
        intro x hx
        simp [hnew x hx]
      rw [this, List.append_nil]
    cases out with
    | none => exact Or.inl ⟨_, none, dropped, used, groups, rest, outs, [], rfl, rfl, hempty [] (by simp)⟩
    | some scan =>
      obtain ⟨hgs, ht⟩ := hcs scan rfl
      simp only [Option.map_some, Option.toList_some]
      by_cases hne : scan.ranges = []
      · rw [if_pos (by simp [hne])]
        exact Or.inl ⟨_, none, dropped, used, groups, rest, outs, [scan], rfl, rfl, hempty [scan] (by simpa using hne)⟩
      · rw [if_neg (by simpa using hne)]
        have hscans' : (scans ++ [scan]).filter (fun x => !x.ranges.isEmpty) = dropped ++ used ++ [scan] := by
          rw [List.filter_append, h.nonempty]
          simp [hne]
        have hdrop : used = [] → Inv3 E { s with collator := c } m.time lo (scans ++ [scan])
            (results ++ (none : Option Result).toList) (dropped ++ [scan]) used groups rest outs := by
          intro hu
          refine ⟨hci, hext, ?_, h.taken, h.ok, h.size, h.pending, h.few, h.accumulated, hwait, by simpa using h.produced, h.matched,
            h.started, hcur⟩
          rw [hscans', hu]
          simp
        cases hx : s.ext with
        | none =>
          refine Or.inl ⟨_, none, dropped ++ [scan], used, groups, rest, outs, [scan], rfl, rfl, ?_⟩
          rw [← hx]
          exact hdrop (h.started hx)
        | some ext =>
          have hi := h.ext ext hx
          have hiw : ∀ x ∈ rest, Waiting ext c.currentEnd x.1 := fun x hx' => hwait x hx' ext hx
          obtain ⟨front, tail, hfront⟩ := List.exists_cons_of_ne_nil hne
          obtain ⟨back, hback⟩ : ∃ b, scan.ranges.getLast? = some b := by
            rw [hfront]
            exact ⟨_, List.getLast?_eq_some_getLast (by simp)⟩
          have hb0 := hgs.upTo back (List.mem_of_getLast? hback)
          have hfr : scan.ranges.head? = some front := by rw [hfront]; rfl
          have hf0 := hgs.upTo front (by rw [hfront]; simp)
          simp only [addScan3]
          rw [hback, hfr]
          simp only
          rw [if_neg (by omega)]
          split
          · rename_i hbef
            obtain ⟨p, hn, hpl, hpp⟩ := hi.pose
            have hlt : scan.time + front.time < p.time := by
              simpa [before, lastPoseTime, hn] using hbef
            have hafter := hgs.after front (by rw [hfront]; simp)
            refine Or.inl ⟨_, none, dropped ++ [scan], used, groups, rest, outs, [scan], rfl, rfl, ?_⟩
            rw [← hx]
            refine hdrop ?_
            by_contra hne'
            have := h.current hne' ext hx p (by rw [hn]; rfl)
            omega
          · rename_i hbef
            have hfirstge : ∀ p ∈ Extrapolator.newest ext, p.time ≤ scan.time + front.time := by
              intro p hn
              have hn : Extrapolator.newest ext = some p := hn
              simpa [before, lastPoseTime, hn] using hbef
            have hsorted := hgs.sorted
            rw [hfront] at hsorted
            have hge : ∀ p ∈ Extrapolator.newest ext, ∀ q ∈ scan.ranges, p.time ≤ scan.time + q.time := by
              intro p hn q hq
              rw [hfront] at hq
              have := hfirstge p hn
              rcases List.mem_cons.1 hq with rfl | hq
              · exact this
              · have := (List.pairwise_cons.1 hsorted).1 q hq
                omega
            have hpt : ∀ p ∈ Extrapolator.newest ext, p.time ≤ scan.time := fun p hn => by have := hfirstge p hn; omega
            have hwnew : Waiting ext c.currentEnd (filtered E scan) :=
              ⟨fun q hq => hgs.valid q (hsel _ q hq), fun q hq => hgs.upTo q (hsel _ q hq),
                fun q hq p hp => hge p hp q (hsel _ q hq), le_of_eq ht⟩
            have hwall : ∀ y ∈ rest ++ [(filtered E scan, f)], Waiting ext c.currentEnd y.1 := by
              intro y hy
              rcases List.mem_append.1 hy with hy | hy
              · exact hiw y hy
              · rw [List.mem_singleton] at hy
                rw [hy]
                exact hwnew
            have hlist : (if s.numAccumulated = 0 then [] else s.accumulated) ++ [{ scan with ranges := E.filterRanges scan.ranges }] =
                (rest ++ [(filtered E scan, f)]).map (·.1) := by
              rw [List.map_append]
              by_cases h0 : s.numAccumulated = 0
              · have : rest = [] := List.eq_nil_of_length_eq_zero (h.pending.trans h0)
                simp [h0, this, filtered]
              · rw [if_neg h0, h.accumulated h0]
                rfl
            have htaken : (used ++ [scan]).map (filtered E) = groups.flatten.map (·.scan) ++ (rest ++ [(filtered E scan, f)]).map (·.1) := by
              rw [List.map_append, h.taken]
              simp
            rw [hlist]
            split
            · rename_i hN
              refine Or.inl ⟨_, none, dropped, used ++ [scan], groups, rest ++ [(filtered E scan, f)], outs, [scan], rfl, rfl, ?_⟩
              refine ⟨hci, ?_, by rw [hscans', List.append_assoc], htaken, h.ok, h.size, by simp [h.pending], by simp only; omega, by simp,
                ?_, by simpa using h.produced, h.matched, by simp, ?_⟩
              · intro e he
                cases he
                exact hext ext hx
              · intro y hy e he
                cases he
                exact hwall y hy
              · intro _ e he
                cases he
                rw [← ht]
                exact hpt
            · rename_i hN
              rcases matchAll3_good hE hf (last := m.time) (hi.mono hl (le_refl _) (le_refl _)) (l := rest ++ [(filtered E scan, f)])
                (x := filtered E scan) (by simp) (fun y hy => ht ▸ hwall y hy) hgs.forward hpt (show scan.time ≤ m.time from ht ▸ hci.endLe) with
                ⟨ext', out, poses, h1, hi1, hp1, hok1, hm1⟩ | h1
              · rw [h1]
                simp only [bind, Except.bind]
                have ht' : (filtered E scan).time = c.currentEnd := ht
                refine Or.inl ⟨⟨c, some ext', 0, (rest ++ [(filtered E scan, f)]).map (·.1)⟩, out, dropped, used ++ [scan],
                  groups ++ [distribute (rest ++ [(filtered E scan, f)]) poses], [], outs ++ [out], [scan], rfl, rfl, ?_⟩
                refine ⟨hci, ?_, by rw [hscans', List.append_assoc], ?_, ?_, ?_, (by rfl), by simp, ?_, by simp, ?_, ?_, by simp, ?_⟩
                · intro e he
                  cases he
                  rw [← ht']
                  exact hi1
                · rw [htaken, List.flatten_append, List.map_append]
                  simp [(distribute_scans _ _).1]
                · intro a ha
                  rw [List.flatten_append] at ha
                  rcases List.mem_append.1 ha with ha | ha
                  · exact h.ok a ha
                  · exact hok1 a (by simpa using ha)
                · intro g hg
                  rcases List.mem_append.1 hg with hg | hg
                  · exact h.size g hg
                  · rw [List.mem_singleton] at hg
                    rw [hg, (distribute_scans _ _).2]
                    have := h.pending
                    have := h.few
                    simp only [List.length_append, List.length_singleton]
                    omega
                · exact fun h0 => absurd rfl h0
                · rw [List.filterMap_append, h.produced]
                  cases out <;> simp
                · exact List.rel_append h.matched (.cons hm1 .nil)
                · intro _ e he
                  cases he
                  rw [← ht']
                  exact hp1
              · right
                rw [h1]
                rfl

theorem run3_good {E : Env} (hE : Sound E) (hsel : ∀ l, ∀ q ∈ E.filterRanges l, q ∈ l) : ∀ {es : List (Event Matcher3)} {s : State3}
    {last lo : Int} {scans : List Scan} {results : List Result} {dropped used : List Scan} {groups : List (List (Used Matcher3))}
    {rest : List (Scan × Matcher3)} {outs : List (Option Result)} (_ : Inv3 E s last lo scans results dropped used groups rest outs)
    (_ : Valid E true es) (_ : Sound3 E es) (_ : ∀ e ∈ es, last ≤ e.time) (_ : ∀ d, Event.odometry d ∈ es → lo < d.time),
    (∃ s' last' lo' rs dropped' used' groups' rest' outs' new, run3 E s es = .ok (s', rs) ∧
      RangeCollator.run E.sort E.defaultIntensity E.expected s.collator (ranges es) = some (s'.collator, new) ∧
      Inv3 E s' last' lo' (scans ++ new) (results ++ rs) dropped' used' groups' rest' outs') ∨
    run3 E s es = .error (.extrapolator .gravity)
  | [], s, last, lo, scans, results, dropped, used, groups, rest, outs, h, _, _, _, _ =>
    Or.inl ⟨s, last, lo, [], dropped, used, groups, rest, outs, [], rfl, rfl, by simpa using h⟩
  | e :: es, s, last, lo, scans, results, dropped, used, groups, rest, outs, h, hv, hs3, hl, hlo => by
    have ho := List.pairwise_cons.1 hv.ordered
    have hod := List.pairwise_cons.1 hv.odometry
    rcases step3_good hE hsel h (e := e) (hl e (by simp)) (hv.bounds e (by simp)).2
      (fun id m f he => hv.messages id m f (by simp [he])) (fun id m f he => hs3.rotations id m f (by simp [he]))
      (fun d he => hlo d (by simp [he])) with ⟨s1, r, D, U, G, R, O, new, h1, hcol, hh1⟩ | h1
    · have hv' : Valid E true es := ⟨ho.2, hod.2, fun x hx => hv.bounds x (by simp [hx]),
        fun id m f hx => hv.messages id m f (by simp [hx]), fun d hx => hv.useImu d (by simp [hx])⟩
      rcases run3_good hE hsel hh1 hv' ⟨hs3.toSound, hs3.selects, fun id m f hx => hs3.rotations id m f (by simp [hx])⟩ ho.1 (by
        intro d hd
        cases e with
        | odometry d' => exact hod.1 _ hd d' d rfl rfl
        | _ => exact hlo d (by simp [hd])) with ⟨s2, last2, lo2, rs, D2, U2, G2, R2, O2, new2, h2, hc2, hh2⟩ | h2
      · refine Or.inl ⟨s2, last2, lo2, r.toList ++ rs, D2, U2, G2, R2, O2, new ++ new2, ?_, collect_run hcol hc2, ?_⟩
        · unfold run3
          rw [h1]
          simp only [bind, Except.bind, h2]
        · simpa [List.append_assoc] using hh2
      · right
        unfold run3
        rw [h1]
        simp only [bind, Except.bind, h2]
    · right
      unfold run3
      rw [h1]
      rfl

/-! ### The theorems -/

/-- C64, 3D: data in order of time never makes local SLAM abort, except for the `CHECK` on the direction of gravity. -/
theorem builder3D_total {E : Env} {es : List (Event Matcher3)} (hE : Sound3 E es) (hv : Valid E true es) :
    (∃ s rs, run3 E {} es = .ok (s, rs)) ∨ run3 E {} es = .error (.extrapolator .gravity) := by
  rcases run3_good hE.toSound hE.selects (inv3_init E (RangeCollator.timeMin - 1)) hv hE (fun e he => (hv.bounds e he).1)
    (fun d hd => by have := (hv.bounds _ hd).1; simp only [Event.time] at this; omega) with
    ⟨s, l, o, rs, D, U, G, R, O, new, h, -⟩ | h
  · exact Or.inl ⟨s, rs, h⟩
  · exact Or.inr h

/-- C65, 3D: the collator's scans that are not empty are, in this order, scans that are dropped, groups of scans that are matched
together and scans that wait; every group has the configured size and all of its rays, after the voxel filter for measurements, go
to the scan matcher. -/
theorem builder3D_conserves {E : Env} {es : List (Event Matcher3)} (hE : Sound3 E es) (hv : Valid E true es) {s : State3}
    {rs : List Result} (h : run3 E {} es = .ok (s, rs)) : ∃ (scans dropped used : List Scan) (groups : List (List (Used Matcher3)))
      (rest : List Scan) (outs : List (Option Result)),
    RangeCollator.run E.sort E.defaultIntensity E.expected RangeCollator.init (ranges es) = some (s.collator, scans) ∧
    scans.filter (fun x => !x.ranges.isEmpty) = dropped ++ used ∧
    used.map (fun x => { x with ranges := E.filterRanges x.ranges }) = groups.flatten.map (·.scan) ++ rest ∧
    (∀ a ∈ groups.flatten, a.Ok) ∧ (∀ g ∈ groups, g.length = max 1 E.opts.numAccumulated) ∧
    rest.length < max 1 E.opts.numAccumulated ∧ List.Forall₂ (Matched3 E) groups outs ∧ outs.filterMap id = rs := by
  rcases run3_good hE.toSound hE.selects (inv3_init E (RangeCollator.timeMin - 1)) hv hE (fun e he => (hv.bounds e he).1)
    (fun d hd => by have := (hv.bounds _ hd).1; simp only [Event.time] at this; omega) with
    ⟨s', l, o, rs', D, U, G, R, O, new, h', hc, hh⟩ | h'
  · rw [h] at h'
    cases h'
    refine ⟨new, D, U, G, R.map Prod.fst, O, hc, by simpa using hh.nonempty, hh.taken, hh.ok, hh.size,
      by rw [List.length_map, hh.pending]; exact hh.few, hh.matched, by simpa using hh.produced⟩
  · rw [h] at h'
    cases h'

theorem matched3_times {E : Env} : ∀ {groups : List (List (Used Matcher3))} {outs : List (Option Result)},
    List.Forall₂ (Matched3 E) groups outs → groups.flatten.Pairwise (fun a b => a.scan.time ≤ b.scan.time) →
    (outs.filterMap id).Pairwise (fun r r' => r.time ≤ r'.time) ∧
      ∀ r ∈ outs.filterMap id, ∃ a ∈ groups.flatten, r.time = a.scan.time
  | [], _, .nil, _ => by simp
  | g :: groups, out :: outs, .cons h hs, hp => by
    rw [List.flatten_cons, List.pairwise_append] at hp
    obtain ⟨h1, h2⟩ := matched3_times hs hp.2.1
    cases out with
    | none =>
      refine ⟨by simpa using h1, fun r hr => ?_⟩
      obtain ⟨a, ha, e⟩ := h2 r (by simpa using hr)
      exact ⟨a, by rw [List.flatten_cons]; simp [ha], e⟩
    | some r =>
      obtain ⟨a, current, -, -, -, hg, -, -, -, p, -, ht, -⟩ := h
      have ha := List.mem_of_getLast? hg
      refine ⟨?_, ?_⟩
      · rw [List.filterMap_cons_some (by rfl : id (some r) = some r), List.pairwise_cons]
        refine ⟨fun r' hr' => ?_, h1⟩
        obtain ⟨b, hb, e⟩ := h2 r' hr'
        rw [ht, e]
        exact hp.2.2 a ha b hb
      · intro r' hr'
        rw [List.filterMap_cons_some (by rfl : id (some r) = some r)] at hr'
        rcases List.mem_cons.1 hr' with rfl | hr'
        · exact ⟨a, by rw [List.flatten_cons]; simp [ha], ht⟩
        · obtain ⟨b, hb, e⟩ := h2 r' hr'
          exact ⟨b, by rw [List.flatten_cons]; simp [hb], e⟩

/-- The results come in order of time, 3D. -/
theorem builder3D_ordered {E : Env} {es : List (Event Matcher3)} (hE : Sound3 E es) (hv : Valid E true es) {s : State3}
    {rs : List Result} (h : run3 E {} es = .ok (s, rs)) : rs.Pairwise (fun r r' => r.time ≤ r'.time) := by
  obtain ⟨scans, dropped, used, groups, rest, outs, hc, hs, ht, hok, hsize, hrest, hm, ho⟩ := builder3D_conserves hE hv h
  have hp := (RangeCollator.run_spec hE.sort RangeCollator.inv_init (fun c hc => by
      obtain ⟨e, he, hce⟩ := List.mem_filterMap.1 hc
      cases e with
      | range id m f =>
        cases hce
        exact (hv.messages id m f he).2
      | _ => cases hce) (inOrder_ranges hv.ordered) (fun c hc => by
      obtain ⟨e, he, hce⟩ := List.mem_filterMap.1 hc
      cases e with
      | range id m f =>
        cases hce
        exact (hv.bounds _ he).1
      | _ => cases hce) hc).2.1
  have hp' : (scans.filter (fun x => !x.ranges.isEmpty)).Pairwise (fun r r' => r.time ≤ r'.time) :=
    (hp.imp (fun hg => hg.forward)).filter _
  rw [hs, List.pairwise_append] at hp'
  have hu : (used.map (fun x => ({ x with ranges := E.filterRanges x.ranges } : Scan))).Pairwise (fun r r' => r.time ≤ r'.time) := by
    rw [List.pairwise_map]
    exact hp'.2.1
  rw [ht, List.pairwise_append, List.pairwise_map] at hu
  rw [← ho]
  exact (matched3_times hm hu.1).1

/-! ### Examples -/

/-- A resting IMU. -/
def exampleImu : Extrapolator.Imu := ⟨0, Extrapolator.unitZ, ⟨0, 0, 0⟩⟩

/-- The assumptions of the theorems hold with IMU data, two messages and a scan matcher that keeps the prediction. -/
example : Sound3 exampleEnv [.imu exampleImu, .range 0 exampleMessage (fun p _ _ => some p),
      .range 0 { exampleMessage with time := 10 } (fun _ _ _ => none)] ∧
    Valid exampleEnv true [.imu exampleImu, .range 0 exampleMessage (fun p _ _ => some p : Matcher3),
      .range 0 { exampleMessage with time := 10 } (fun _ _ _ => none)] := by
  have hg : ∀ t, RangeCollator.timeMin ≤ t → t ≤ RangeCollator.timeMax →
      RangeCollator.GoodMessage { exampleMessage with time := t } := by
    intro t h1 h2
    exact ⟨by simp [exampleMessage], by simp [exampleMessage], h1, h2⟩
  refine ⟨⟨exampleEnv_sound, fun l q h => h, ?_⟩, ⟨?_, ?_, ?_, ?_, ?_⟩⟩
  · intro id m f hm pose low high p hp hf
    simp only [List.mem_cons, Event.range.injEq, reduceCtorEq, List.not_mem_nil, or_false, false_or] at hm
    rcases hm with ⟨-, -, rfl⟩ | ⟨-, -, rfl⟩
    · cases hf
      exact hp
    · cases hf
  · simp [Event.time, exampleMessage, exampleImu]
  · simp
  · simp [Event.time, exampleMessage, exampleImu, RangeCollator.timeMin, RangeCollator.timeMax]
  · intro id m f hm
    simp only [List.mem_cons, Event.range.injEq, reduceCtorEq, List.not_mem_nil, or_false, false_or] at hm
    rcases hm with ⟨rfl, rfl, -⟩ | ⟨rfl, rfl, -⟩
    · exact ⟨by simp [exampleEnv], hg 0 (by simp [RangeCollator.timeMin]) (by simp [RangeCollator.timeMax])⟩
    · exact ⟨by simp [exampleEnv], hg 10 (by simp [RangeCollator.timeMin]) (by simp [RangeCollator.timeMax])⟩
  · simp

open Extrapolator in
/-- The extrapolator after the IMU data, before and after the first extrapolation. -/
def resting3 (cached : Option Int) : Extrapolator.State := { resting cached with imu := [exampleImu] }

open Extrapolator in
theorem advanceImu_resting {s : Extrapolator.State} (hs : s.imu = [exampleImu]) :
    advanceImuTracker exampleParams s 0 (idle 0 (some 0)) = .ok (idle 0 (some 0)) := by
  unfold advanceImuTracker
  rw [if_pos (by simp [idle]), hs]
  simp only
  rw [if_neg (by simp [exampleImu])]
  have h1 : advanceToFront exampleImu (idle 0 (some 0)) = .ok (idle 0 (some 0)) := by simp [advanceToFront, idle, exampleImu]
  rw [h1]
  simp only [bind, Except.bind]
  simp only [exampleImu, idle, lt_irrefl, decide_false, List.dropWhile_cons, Bool.false_eq_true, if_false, follow]
  exact advance_idle (le_refl _)

open Extrapolator in
theorem initialize_resting : initializeWithImu exampleParams exampleImu = .ok (resting3 none) := by
  have h2 : observe exampleParams (Tracker.new 0) unitZ = .ok (idle 0 (some 0)) := by
    have : Tracker.new 0 = idle 0 none := rfl
    rw [this, observe_idle (P := exampleParams) twoVectors_spec]
  simp only [initializeWithImu, Extrapolator.bind_ok]
  refine ⟨{ imu := [exampleImu] }, rfl, idle 0 (some 0), h2, idle 0 (some 0), advance_idle (t0 := 0) (t := 0) (l := some 0) (le_refl _), ?_⟩
  simp only [addPose, Extrapolator.bind_ok]
  refine ⟨{ imu := [exampleImu], tracker := some (idle 0 (some 0)), poses := [⟨0, Rigid3.identity⟩] }, rfl, idle 0 (some 0), ?_, rfl⟩
  exact advanceImu_resting rfl

open Extrapolator in
theorem resting3_extrapolate {cached : Option Int} (h : cached = none ∨ cached = some 0) :
    extrapolatePose exampleParams (resting3 cached) 0 = .ok (Rigid3.identity, resting3 (some 0)) := by
  rcases h with rfl | rfl
  · have hr : extrapolateRotation exampleParams (resting3 none) 0 (idle 0 (some 0)) = .ok (⟨1, 0, 0, 0⟩, idle 0 (some 0)) := by
      unfold extrapolateRotation
      simp only [resting3, resting, Extrapolator.bind_ok]
      refine ⟨idle 0 (some 0), advanceImu_resting rfl, ?_⟩
      simp only [idle, inverse_unit one_unit, conjugate_mul one_unit]
    have hp : (⟨vadd (extrapolateTranslation (resting3 none) ⟨0, Rigid3.identity⟩ 0) Rigid3.identity.translation,
        Rigid3.identity.rotation.mul ⟨1, 0, 0, 0⟩⟩ : Rigid3) = Rigid3.identity := by
      rw [quat_mul_one]
      ext <;> simp [vadd, extrapolateTranslation, Extrapolator.smul, Rigid3.identity, resting3, resting]
    simp only [extrapolatePose, show newest (resting3 none) = some ⟨0, Rigid3.identity⟩ from rfl]
    rw [if_pos (by norm_num), if_neg (by simp [resting3, resting])]
    simp only [show (resting3 none).extrapolationTracker = some (idle 0 (some 0)) from rfl, Extrapolator.bind_ok]
    refine ⟨_, hr, ?_⟩
    simp only [hp]
    rfl
  · simp only [extrapolatePose, show newest (resting3 (some 0)) = some ⟨0, Rigid3.identity⟩ from rfl]
    rw [if_pos (by norm_num), if_pos (by simp [resting3, resting])]
    rfl

open Extrapolator in
theorem resting3_addPose (p : Rigid3) : ∃ s', addPose exampleParams (resting3 (some 0)) 0 p = .ok s' := by
  simp only [addPose, Extrapolator.bind_ok]
  refine ⟨_, { resting3 (some 0) with poses := [⟨0, Rigid3.identity⟩, ⟨0, p⟩] }, ?_, idle 0 (some 0), ?_, rfl⟩
  · simp only [updateVelocities, newest, trimPoses, resting3, resting, List.cons_append, List.nil_append]
    rw [show [TimedPose.mk 0 Rigid3.identity, ⟨0, p⟩].getLast? = some ⟨0, p⟩ from rfl]
    simp only
    rw [if_pos]
    simp [toSeconds, exampleParams]
  · exact advanceImu_resting rfl

/-- A concrete run, up to the scan matcher: the IMU data starts the extrapolator and the first scan goes to the scan matcher. -/
example : ∃ s r, run3 exampleEnv {} [.imu exampleImu, .range 0 exampleMessage (fun p _ _ => some p)] = .ok (s, [r]) ∧
    r.pose = Rigid3.identity ∧ r.data.returns = [⟨2, 0, 0⟩] ∧ r.data.misses = [⟨5, 0, 0⟩] := by
  obtain ⟨c, hc⟩ := example_collated
  have hc' : RangeCollator.addRangeData exampleEnv.sort exampleEnv.defaultIntensity exampleEnv.expected RangeCollator.init 0
    exampleMessage = some (c, some exampleScan) := hc
  have hP : exampleEnv.params = Extrapolator.exampleParams := rfl
  obtain ⟨ext, hext⟩ := resting3_addPose Rigid3.identity
  let rays : List Ray := [⟨⟨0, 0, 0⟩, ⟨1 / 2, 0, 0⟩, Rigid3.identity⟩, ⟨⟨0, 0, 0⟩, ⟨2, 0, 0⟩, Rigid3.identity⟩,
    ⟨⟨0, 0, 0⟩, ⟨8, 0, 0⟩, Rigid3.identity⟩]
  have hr1 : (⟨⟨0, 0, 0⟩, ⟨1 / 2, 0, 0⟩, Rigid3.identity⟩ : Ray).range = 1 / 2 := by
    simp [Ray.range, V3.distSq, Real.sqrt_sq]
  have hr2 : (⟨⟨0, 0, 0⟩, ⟨2, 0, 0⟩, Rigid3.identity⟩ : Ray).range = 2 := by
    simp [Ray.range, V3.distSq, Real.sqrt_sq]
  have hr3 : (⟨⟨0, 0, 0⟩, ⟨8, 0, 0⟩, Rigid3.identity⟩ : Ray).range = 8 := by
    simp [Ray.range, V3.distSq, Real.sqrt_sq]
  have hret : returnsOf exampleEnv.opts rays = [⟨2, 0, 0⟩] := by
    have h1 : ¬ (1 : ℝ) ≤ 1 / 2 := by norm_num
    have h2 : ((1 : ℝ) ≤ 2 ∧ (2 : ℝ) ≤ 5) := by norm_num
    have h3 : ¬ (8 : ℝ) ≤ 5 := by norm_num
    simp only [returnsOf, rays, exampleEnv, List.filter_cons, hr1, hr2, hr3, h1, h2, h3, List.filter_nil, List.map_cons,
      List.map_nil, identity_apply, and_false, false_and, decide_false, decide_true, and_self, if_true, Bool.false_eq_true, if_false]
  have hmis : missesOf exampleEnv.opts 5 rays = [⟨5, 0, 0⟩] := by
    have h1 : ¬ (1 : ℝ) ≤ 1 / 2 := by norm_num
    have h2 : ¬ (5 : ℝ) < 2 := by norm_num
    have h3 : ((1 : ℝ) ≤ 8 ∧ (5 : ℝ) < 8) := by norm_num
    simp only [missesOf, rays, exampleEnv, List.filter_cons, hr1, hr2, hr3, h1, h2, h3, List.filter_nil, List.map_cons,
      List.map_nil, identity_apply, and_false, false_and, decide_false, decide_true, and_self, if_true, Bool.false_eq_true, if_false,
      Ray.at]
    norm_num
  have hadd : addScans exampleEnv.opts [exampleScan] [Rigid3.identity, Rigid3.identity, Rigid3.identity, Rigid3.identity]
      ⟨⟨0, 0, 0⟩, [], []⟩ = .ok (⟨⟨0, 0, 0⟩, [⟨2, 0, 0⟩], [⟨5, 0, 0⟩]⟩, [Rigid3.identity]) := by
    have h := addScans_spec (o := exampleEnv.opts) (l := [(exampleScan, fun p _ _ => some p)])
      (poses := [Rigid3.identity, Rigid3.identity, Rigid3.identity, Rigid3.identity]) (acc := ⟨⟨0, 0, 0⟩, [], []⟩)
      (by simp [proper_identity]) (by simp [exampleScan]) (by simp [total, exampleScan])
    refine h.trans (congrArg Except.ok ?_)
    rw [← hret, ← hmis]
    rfl
  have hinv : Rigid3.identity.inverse = Rigid3.identity := by
    ext <;> simp [Rigid3.inverse, Rigid3.identity, Quat.conjugate, Quat.rotate, cross]
  have hposes : posesAt exampleEnv.params (allHitTimes [exampleScan] (lastExtrapolated (resting3 none))) (resting3 none) =
      .ok ([Rigid3.identity, Rigid3.identity, Rigid3.identity], resting3 (some 0)) := by
    have : allHitTimes [exampleScan] (lastExtrapolated (resting3 none)) = [0, 0, 0] := by
      simp [allHitTimes, hitTimes, exampleScan, lastExtrapolated, resting3, resting, before, Extrapolator.idle]
    rw [this]
    simp only [hP, posesAt, resting3_extrapolate (Or.inl rfl), bind, Except.bind, resting3_extrapolate (Or.inr rfl)]
  have hgrav : Extrapolator.estimateGravity exampleEnv.params (resting3 (some 0)) 0 = .ok ⟨1, 0, 0, 0⟩ := by
    simp only [hP, Extrapolator.estimateGravity, resting3, resting, Extrapolator.bind_ok]
    exact ⟨Extrapolator.idle 0 (some 0), advanceImu_resting rfl, rfl⟩
  have hmatch : matchAll3 exampleEnv (fun p _ _ => some p) [exampleScan] (resting3 none) =
      .ok (ext, some ⟨0, Rigid3.identity, ⟨⟨0, 0, 0⟩, [⟨2, 0, 0⟩], [⟨5, 0, 0⟩]⟩⟩) := by
    unfold matchAll3
    simp only [List.getLast?_singleton, hposes, lift, bind, Except.bind, show exampleScan.time = 0 from rfl]
    simp only [hP, resting3_extrapolate (Or.inr rfl)]
    rw [← hP, hgrav]
    simp only [List.cons_append, List.nil_append, show Rigid3.identity.translation = ⟨0, 0, 0⟩ from rfl, hadd]
    rw [if_pos (by rfl)]
    unfold matchScan3
    simp only [hinv, transform, exampleEnv, id, List.map_cons, List.map_nil, identity_apply, List.isEmpty_cons, Bool.false_eq_true,
      if_false, hext, lift, bind, Except.bind]
  refine ⟨⟨c, some ext, 0, [exampleScan]⟩, ⟨0, Rigid3.identity, ⟨⟨0, 0, 0⟩, [⟨2, 0, 0⟩], [⟨5, 0, 0⟩]⟩⟩, ?_, rfl, rfl, rfl⟩
  have hstep : addScan3 exampleEnv (fun p _ _ => some p) ⟨c, some (resting3 none), 0, []⟩ (resting3 none) exampleScan =
      .ok (⟨c, some ext, 0, [exampleScan]⟩, some ⟨0, Rigid3.identity, ⟨⟨0, 0, 0⟩, [⟨2, 0, 0⟩], [⟨5, 0, 0⟩]⟩⟩) := by
    unfold addScan3
    rw [show exampleScan.ranges.head? = some ⟨⟨1 / 2, 0, 0⟩, 0, 0, 0⟩ from rfl,
      show exampleScan.ranges.getLast? = some ⟨⟨8, 0, 0⟩, 0, 0, 0⟩ from rfl]
    simp only
    rw [if_neg (by norm_num), if_neg (by simp [before, lastPoseTime, exampleScan, resting3, resting, Extrapolator.newest])]
    simp only [if_true, List.nil_append]
    rw [if_neg (by simp [exampleEnv])]
    have : ({ exampleScan with ranges := exampleEnv.filterRanges exampleScan.ranges } : Scan) = exampleScan := rfl
    rw [this, hmatch]
    rfl
  simp only [run3, step3, addRange3, hP, initialize_resting, lift, bind, Except.bind]
  simp only [hc']
  rw [if_neg (by simp [exampleScan])]
  rw [hstep]
  rfl

end Verif.LocalBuilder
