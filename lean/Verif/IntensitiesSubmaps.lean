import Verif.IntensitiesLemmas

/-!
# Lemmas about the intensities in submaps
-/

namespace Verif.Intensities

open Verif.Voxel Verif.Compressed Verif.Hybrid Verif.MatchCost Verif.Rigid

/-- An inserted scan with the returns in local frame. -/
abbrev Item := Scan × PC

/-- The origin of the inserted range data. -/
def originOf (e : Scan) : P3 := e.estimate (e.toTracking e.origin)

/-- The frame of a submap comes from the first scan that was inserted. -/
def frameOf (fr : P3 → P3) : List Item → P3 → P3
  | [] => fr
  | d :: _ => d.1.frame

/-- The intensity of a point of an inserted scan, if it counts for voxel `i` of a submap: there is one, it is not above the threshold, the
point is near enough to the sensor and it is in the voxel. -/
def counts (o : Options) (frame : P3 → P3) (e : Scan) (i : I3) (q : P3 × Option ℚ) : Option ℚ :=
  q.2.bind fun v =>
    if v ≤ o.threshold ∧ (0 ≤ o.highMaxRange ∧ dist2 (frame (originOf e)) (frame q.1) ≤ o.highMaxRange * o.highMaxRange) ∧
      Insert3D.cellOf o.highResolution (coords (frame q.1)) = i then some v else none

/-- The intensities that count for voxel `i` of a submap with these scans. -/
def values (o : Options) (frame : P3 → P3) (i : I3) (data : List Item) : List ℚ :=
  data.flatMap fun d => (pairs d.2).filterMap (counts o frame d.1 i)

theorem relevant_zip (res threshold : ℚ) (i : I3) : ∀ (ps : List P3) (vs : List ℚ), Insert3D.relevant res threshold i ((ps.map coords).zip vs) =
    (ps.zip (vs.map some)).filterMap fun q => q.2.bind fun v => if v ≤ threshold ∧ Insert3D.cellOf res (coords q.1) = i then some v else none
  | [], _ => by simp [Insert3D.relevant]
  | _ :: _, [] => by simp [Insert3D.relevant]
  | p :: ps, v :: vs => by
    have ih := relevant_zip res threshold i ps vs
    unfold Insert3D.relevant at ih ⊢
    by_cases h : v ≤ threshold ∧ Insert3D.cellOf res (coords p) = i
    · simp only [List.map_cons, List.zip_cons_cons, List.filterMap_cons, Option.bind_some, if_pos h]
      rw [List.filter_cons_of_pos (by simpa using h), List.map_cons, ih]
    · simp only [List.map_cons, List.zip_cons_cons, List.filterMap_cons, Option.bind_some, if_neg h]
      rw [List.filter_cons_of_neg (by simpa using h), ih]

theorem relevant_pairs {u : Bool} {c : PC} (h : Full u c) (res threshold : ℚ) (i : I3) :
    Insert3D.relevant res threshold i ((c.points.map coords).zip c.intensities) =
      (pairs c).filterMap fun q => q.2.bind fun v => if v ≤ threshold ∧ Insert3D.cellOf res (coords q.1) = i then some v else none := by
  cases u
  · have h' : c.intensities = [] := h
    rw [pairs_none h, h']
    simp [Insert3D.relevant]
  · rw [pairs_full h, relevant_zip]

/-- The submap agrees with its history: counters, well-formed grids and an intensity grid with the sums and numbers of the values. -/
structure Matches (o : Options) (fr : P3 → P3) (s : Submap) (a : ActiveSubmaps.Submap Item) : Prop where
  num : s.numRangeData = a.numRangeData
  finished : s.finished = a.finished
  frame : s.frame = frameOf fr a.data
  high : HGWf s.high ∧ s.high.updates = [] ∧ s.high.resolution = o.highResolution
  low : HGWf s.low ∧ s.low.updates = [] ∧ s.low.resolution = o.lowResolution
  grid : ∃ ig, s.intensity = some ig ∧ Insert3D.IGWf ig ∧ ig.resolution = o.highResolution ∧
    ∀ i, Insert3D.cell ig i = ((values o s.frame i a.data).sum, (values o s.frame i a.data).length)

/-- What is inserted fits into the grids. -/
def FitsItem (o : Options) (frame : P3 → P3) (d : Item) : Prop :=
  ∀ r, r = o.highResolution ∨ r = o.lowResolution →
    Valid (Insert3D.cellOf r (coords (frame (originOf d.1)))) ∧ ∀ p ∈ d.2.points, Valid (Insert3D.cellOf r (coords (frame p)))

theorem frameOf_append (d : Item) (data : List Item) : frameOf d.1.frame (data ++ [d]) = frameOf d.1.frame data := by
  cases data <;> rfl

theorem insertIntensities_resolution {s : Insert3D.Scan3} (hs : s.intensities = [] ∨ s.intensities.length = s.returns.length) {threshold : ℚ} {hit miss : List Nat}
    {free : Int} {g g' : HG} {q q' : Insert3D.IG} (w : Insert3D.IGWf q) (hv : ∀ p ∈ s.returns, Valid (Insert3D.cellOf q.resolution p))
    (h : Insert3D.insert s hit miss free threshold g (some q) = some (g', some q')) : q'.resolution = q.resolution := by
  obtain ⟨q2, e, -, r, -⟩ := Insert3D.insertIntensities_spec s hs threshold w hv
  simp only [Insert3D.insert, Insert3D.insertIntensities?, e, Option.map_some, Option.bind_eq_bind, Option.bind_eq_some_iff, Option.bind_some,
    Option.some.injEq, Prod.mk.injEq] at h
  obtain ⟨_, _, _, _, _, _, _, rfl⟩ := h
  exact r

theorem full_scan {u : Bool} {c : PC} (h : Full u c) (origin : P3) :
    (toScan3 origin c).intensities = [] ∨ (toScan3 origin c).intensities.length = (toScan3 origin c).returns.length := by
  rcases h.valid with h | h
  · exact Or.inl h
  · exact Or.inr (by simpa [toScan3] using h)

theorem insertInto_eq {o : Options} (hh : Grid2D.TableOk o.hit) (hm : Grid2D.TableOk o.miss) {s : Submap} {a : ActiveSubmaps.Submap Item} {d : Item} {u : Bool}
    (M : Matches o d.1.frame s a) (hf : a.finished = false) (hc : Full u d.2) (fits : FitsItem o s.frame d) :
    ∃ s', insertInto o (originOf d.1) d.2 s = some s' ∧
      Matches o d.1.frame s' { a with data := a.data ++ [d], numRangeData := a.numRangeData + 1 } := by
  obtain ⟨e1, f1⟩ := transform_eq hc s.frame
  obtain ⟨near, e2, f2, p2, q2⟩ := copyIf_eq f1 fun p =>
    decide (0 ≤ o.highMaxRange ∧ dist2 (s.frame (originOf d.1)) p ≤ o.highMaxRange * o.highMaxRange)
  obtain ⟨ig, hig, wig, rig, cig⟩ := M.grid
  have nearv : ∀ r, r = o.highResolution ∨ r = o.lowResolution → ∀ p ∈ (toScan3 (s.frame (originOf d.1)) near).returns, Valid (Insert3D.cellOf r p) := by
    intro r hr p hp
    simp only [toScan3, p2, List.mem_map, List.mem_filter] at hp
    obtain ⟨_, ⟨⟨x, hx, rfl⟩, -⟩, rfl⟩ := hp
    exact (fits r hr).2 x hx
  have farv : ∀ r, r = o.highResolution ∨ r = o.lowResolution → ∀ p ∈ (toScan3 (s.frame (originOf d.1)) ⟨d.2.points.map s.frame, d.2.intensities⟩).returns,
      Valid (Insert3D.cellOf r p) := by
    intro r hr p hp
    simp only [toScan3, List.mem_map] at hp
    obtain ⟨_, ⟨x, hx, rfl⟩, rfl⟩ := hp
    exact (fits r hr).2 x hx
  obtain ⟨g1, ig1, e3, w3, u3, r3, -, i3, v3⟩ := Insert3D.insert_hits_over_misses_3d (toScan3 (s.frame (originOf d.1)) near) hh hm o.freeVoxels o.threshold
    M.high.1 M.high.2.1 (some ig) (full_scan f2 _) (by rw [M.high.2.2]; exact (fits _ (Or.inl rfl)).1)
    (by rw [M.high.2.2]; exact nearv _ (Or.inl rfl)) (by
      intro q hq
      rw [Option.some.injEq] at hq
      subst hq
      exact ⟨wig, by rw [rig]; exact nearv _ (Or.inl rfl)⟩)
  obtain ⟨g2, ig2, e4, w4, u4, r4, -⟩ := Insert3D.insert_hits_over_misses_3d (toScan3 (s.frame (originOf d.1)) ⟨d.2.points.map s.frame, d.2.intensities⟩) hh hm
    o.freeVoxels o.threshold M.low.1 M.low.2.1 none (full_scan f1 _) (by rw [M.low.2.2]; exact (fits _ (Or.inr rfl)).1)
    (by rw [M.low.2.2]; exact farv _ (Or.inr rfl)) (by intro q hq; cases hq)
  obtain ⟨ig', rfl⟩ : ∃ q, ig1 = some q := Option.isSome_iff_exists.1 (by rw [i3]; rfl)
  have hres := insertIntensities_resolution (full_scan f2 _) wig (by rw [rig]; exact nearv _ (Or.inl rfl)) e3
  obtain ⟨wig', cig'⟩ := v3 ig ig' rfl rfl
  refine ⟨{ s with high := g1, low := g2, intensity := some ig', numRangeData := s.numRangeData + 1 }, ?_, ?_⟩
  · unfold insertInto filterByRange
    rw [if_neg (by rw [M.finished, hf]; simp)]
    simp only [e1, Option.bind_eq_bind, Option.bind_some, e2, hig, e3, e4]
  · refine ⟨by simp [M.num], M.finished, ?_, ⟨w3, u3, by rw [r3]; exact M.high.2.2⟩, ⟨w4, u4, by rw [r4]; exact M.low.2.2⟩, ig', rfl, wig', hres.trans rig, ?_⟩
    · simp only
      rw [frameOf_append]
      exact M.frame
    · intro i
      have key : Insert3D.relevant ig.resolution o.threshold i ((toScan3 (s.frame (originOf d.1)) near).returns.zip
          (toScan3 (s.frame (originOf d.1)) near).intensities) = (pairs d.2).filterMap (counts o s.frame d.1 i) := by
        simp only [toScan3]
        rw [relevant_pairs f2, q2, pairs_map, rig, List.filterMap_filter, List.filterMap_map]
        refine List.filterMap_congr fun q _ => ?_
        obtain ⟨p, v⟩ := q
        cases v with
        | none => simp [counts]
        | some v =>
          simp only [counts, Function.comp_apply, Option.bind_some, decide_eq_true_eq]
          by_cases h1 : 0 ≤ o.highMaxRange ∧ dist2 (s.frame (originOf d.1)) (s.frame p) ≤ o.highMaxRange * o.highMaxRange
          · simp [h1]
          · simp [h1]
      rw [cig', cig, key]
      simp [values]

/-! ### Active submaps -/

/-- The active submaps agree with their histories; those that were erased have no intensity grid any more. -/
structure Rel (o : Options) (fr : P3 → P3) (st : State) (a : ActiveSubmaps.State Item) : Prop where
  active : List.Forall₂ (Matches o fr) st.submaps a.submaps
  erased : List.Forall₂ (fun s b => s.intensity = none ∧ s.numRangeData = b.numRangeData ∧ s.finished = b.finished) st.erased a.erased

theorem new_matches (o : Options) (fr : P3 → P3) : Matches o fr (newSubmap o fr) ActiveSubmaps.newSubmap :=
  ⟨rfl, rfl, rfl, ⟨create_wf _, rfl, rfl⟩, ⟨create_wf _, rfl, rfl⟩, _, rfl, empty_wf _, rfl, fun i => by
    simp only [values, ActiveSubmaps.newSubmap, List.flatMap_nil, List.sum_nil, List.length_nil]
    exact empty_dlook _ i⟩

theorem needsNew_eq {o : Options} {fr : P3 → P3} {l : List Submap} {m : List (ActiveSubmaps.Submap Item)} (h : List.Forall₂ (Matches o fr) l m) (n : Nat) :
    needsNew n l = ActiveSubmaps.needsNew n m := by
  unfold needsNew ActiveSubmaps.needsNew
  induction h with
  | nil => rfl
  | cons h t ih =>
    cases t with
    | nil => simp [h.num]
    | cons h' t' => simpa using ih

theorem addSubmap_eq {o : Options} {fr : P3 → P3} {st : State} {a a' : ActiveSubmaps.State Item} (R : Rel o fr st a)
    (h : ActiveSubmaps.addSubmap a = some a') : ∃ st', addSubmap o fr st = some st' ∧ Rel o fr st' a' := by
  obtain ⟨er, su⟩ := st
  obtain ⟨er', su'⟩ := a
  obtain ⟨hA, hE⟩ := R
  simp only at hA hE
  unfold ActiveSubmaps.addSubmap at h
  unfold addSubmap
  rcases hA with _ | ⟨h1, _ | ⟨h2, t⟩⟩
  · simp only [Option.some.injEq] at h
    subst h
    exact ⟨_, rfl, .cons (new_matches o fr) .nil, hE⟩
  · simp only [Option.some.injEq] at h
    subst h
    exact ⟨_, rfl, .cons h1 (.cons (new_matches o fr) .nil), hE⟩
  · simp only at h
    split at h
    · rename_i hf
      simp only [Option.some.injEq] at h
      subst h
      simp only [h1.finished, hf, if_true]
      refine ⟨_, rfl, ?_, ?_⟩
      · exact List.rel_append (.cons h2 t) (.cons (new_matches o fr) .nil)
      · exact List.rel_append hE (.cons ⟨rfl, h1.num, h1.finished⟩ .nil)
    · cases h

theorem mapM_eq {o : Options} (hh : Grid2D.TableOk o.hit) (hm : Grid2D.TableOk o.miss) {d : Item} {u : Bool} (hc : Full u d.2) {l : List Submap}
    {m m' : List (ActiveSubmaps.Submap Item)} (h : List.Forall₂ (Matches o d.1.frame) l m) (fits : ∀ s ∈ l, FitsItem o s.frame d)
    (e : m.mapM (ActiveSubmaps.insertInto d) = some m') :
    ∃ l', l.mapM (insertInto o (originOf d.1) d.2) = some l' ∧ List.Forall₂ (Matches o d.1.frame) l' m' := by
  induction h generalizing m' with
  | nil =>
    simp only [List.mapM_nil, Option.pure_def, Option.some.injEq] at e
    subst e
    exact ⟨[], rfl, .nil⟩
  | @cons s b l m h t ih =>
    simp only [List.mapM_cons, Option.pure_def, Option.bind_eq_bind, Option.bind_eq_some_iff, Option.some.injEq] at e
    obtain ⟨b', e1, m', e2, rfl⟩ := e
    unfold ActiveSubmaps.insertInto at e1
    split at e1
    · cases e1
    · rename_i hf
      simp only [Option.some.injEq] at e1
      subst e1
      obtain ⟨s', e3, M⟩ := insertInto_eq hh hm h (by simpa using hf) hc (fits s (by simp))
      obtain ⟨l', e4, F⟩ := ih (fun s hs => fits s (by simp [hs])) e2
      refine ⟨s' :: l', ?_, .cons M F⟩
      simp only [List.mapM_cons, Option.pure_def, Option.bind_eq_bind, e3, e4, Option.bind_some]

theorem finishFront_eq {o : Options} {fr : P3 → P3} {n : Nat} {l : List Submap} {m m' : List (ActiveSubmaps.Submap Item)}
    (h : List.Forall₂ (Matches o fr) l m) (e : ActiveSubmaps.finishFront n m = some m') :
    ∃ l', finishFront n l = some l' ∧ List.Forall₂ (Matches o fr) l' m' := by
  cases h with
  | nil => cases e
  | @cons s b l m h t =>
    simp only [ActiveSubmaps.finishFront] at e
    simp only [finishFront, h.num]
    split at e
    · rename_i hn
      rw [if_pos hn]
      unfold ActiveSubmaps.finish at e
      split at e
      · cases e
      · rename_i hf
        simp only [Option.map_some, Option.some.injEq] at e
        subst e
        rw [if_neg (by rw [h.finished]; exact hf)]
        exact ⟨_, rfl, .cons ⟨rfl, rfl, h.frame, h.high, h.low, h.grid⟩ t⟩
    · rename_i hn
      rw [if_neg hn]
      simp only [Option.some.injEq] at e
      subst e
      exact ⟨_, rfl, .cons h t⟩

/-- Inserting range data does with the submaps what it does with their histories. -/
theorem insertData_eq {o : Options} (hh : Grid2D.TableOk o.hit) (hm : Grid2D.TableOk o.miss) {d : Item} {u : Bool} (hc : Full u d.2) {st : State}
    {a a' : ActiveSubmaps.State Item} (R : Rel o d.1.frame st a) (fits : ∀ s ∈ st.submaps, FitsItem o s.frame d) (fitsNew : FitsItem o d.1.frame d)
    (e : ActiveSubmaps.insertRangeData o.numRangeData a d = some a') :
    ∃ st', insertData o d.1.frame (originOf d.1) d.2 st = some st' ∧ Rel o d.1.frame st' a' := by
  obtain ⟨a1, e1, e'⟩ : ∃ a1, (if ActiveSubmaps.needsNew o.numRangeData a.submaps then ActiveSubmaps.addSubmap a else some a) = some a1 ∧
      (do
        let l ← a1.submaps.mapM (ActiveSubmaps.insertInto d)
        let l ← ActiveSubmaps.finishFront o.numRangeData l
        some { a1 with submaps := l }) = some a' := by
    unfold ActiveSubmaps.insertRangeData at e
    by_cases hn : ActiveSubmaps.needsNew o.numRangeData a.submaps = true
    · simp only [hn, if_true, Option.bind_eq_bind] at e ⊢
      exact Option.bind_eq_some_iff.1 e
    · simp only [hn, if_false, Option.bind_eq_bind, Bool.false_eq_true] at e ⊢
      exact ⟨a, rfl, e⟩
  simp only [Option.bind_eq_bind, Option.bind_eq_some_iff, Option.some.injEq] at e'
  obtain ⟨m, e2, m', e3, rfl⟩ := e'
  have h1 : ∃ st1, (if needsNew o.numRangeData st.submaps then addSubmap o d.1.frame st else some st) = some st1 ∧ Rel o d.1.frame st1 a1 ∧
      ∀ s ∈ st1.submaps, FitsItem o s.frame d := by
    rw [needsNew_eq R.active]
    split at e1
    · rename_i hn
      rw [if_pos hn]
      obtain ⟨st1, es, R1⟩ := addSubmap_eq R e1
      refine ⟨st1, es, R1, ?_⟩
      intro s hs
      unfold addSubmap at es
      split at es
      · rename_i front second rest heq
        split at es
        · simp only [Option.some.injEq] at es
          subst es
          simp only [List.mem_append, List.mem_cons, List.not_mem_nil, or_false] at hs
          rcases hs with hs | rfl
          · exact fits s (by rw [heq]; simp [hs])
          · exact fitsNew
        · cases es
      · simp only [Option.some.injEq] at es
        subst es
        simp only [List.mem_append, List.mem_cons, List.not_mem_nil, or_false] at hs
        rcases hs with hs | rfl
        · exact fits s hs
        · exact fitsNew
    · rename_i hn
      rw [if_neg hn]
      simp only [Option.some.injEq] at e1
      subst e1
      exact ⟨st, rfl, R, fits⟩
  obtain ⟨st1, es1, R1, fits1⟩ := h1
  obtain ⟨l, es2, F⟩ := mapM_eq hh hm hc R1.active fits1 e2
  obtain ⟨l', es3, F'⟩ := finishFront_eq F e3
  refine ⟨{ st1 with submaps := l' }, ?_, F', R1.erased⟩
  unfold insertData
  by_cases hn : needsNew o.numRangeData st.submaps = true
  · simp only [hn, if_true] at es1 ⊢
    simp only [es1, es2, es3, Option.bind_eq_bind, Option.bind_some]
  · simp only [hn, if_false, Bool.false_eq_true, Option.some.injEq] at es1 ⊢
    subst es1
    simp only [es2, es3, Option.bind_eq_bind, Option.bind_some]

end Verif.Intensities
