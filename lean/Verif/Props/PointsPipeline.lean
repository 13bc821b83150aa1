import Verif.Props.PointsProcessor

/-!
# C66: what a pipeline of points processors computes; C67: which pipelines abort
-/

namespace Verif.Points

open Verif.Compressed Verif.Hybrid

/-! ### One stage after the other -/

/-- A stage processes a stream. -/
def runStage (E : Env) : Stage → List Batch → Option (Stage × List Batch)
  | st, [] => some (st, [])
  | st, b :: bs => do
    let (st1, o) ← st.process E b
    let (st2, os) ← runStage E st1 bs
    some (st2, o.toList ++ os)

theorem run_cons (E : Env) : ∀ (stream : List Batch) (st : Stage) (rest : List Stage),
    stream.foldlM (process E) (st :: rest) = (runStage E st stream).bind (fun x =>
      (x.2.foldlM (process E) rest).map (x.1 :: ·))
  | [], st, rest => rfl
  | b :: bs, st, rest => by
    rw [List.foldlM_cons]
    simp only [process, runStage, Option.bind_eq_bind]
    cases hp : st.process E b with
    | none => rfl
    | some x =>
      obtain ⟨st1, o⟩ := x
      simp only [Option.bind_some]
      cases o with
      | none =>
        simp only [Option.bind_some]
        rw [run_cons E bs st1 rest]
        cases runStage E st1 bs <;> rfl
      | some b' =>
        simp only [Option.toList_some, List.singleton_append]
        cases hr : process E rest b' with
        | none =>
          simp only [Option.bind_none]
          cases runStage E st1 bs with
          | none => rfl
          | some y => simp [List.foldlM_cons, hr]
        | some rest1 =>
          simp only [Option.bind_some]
          rw [run_cons E bs st1 rest1]
          cases runStage E st1 bs with
          | none => rfl
          | some y => simp [List.foldlM_cons, hr]

/-- A stage with no outlier removal processes a stream. -/
theorem runStage_mid (E : Env) {c : Config} : ∀ (stream : List Batch) {s : List SBatch} {st : Stage}, Mid E c s st →
    (∀ b ∈ stream, Aligned b) → Acceptable c (s ++ stream.map view) →
    ∃ st' out, runStage E st stream = some (st', out) ∧ Mid E c (s ++ stream.map view) st' ∧ (∀ b ∈ out, Aligned b) ∧
      denote E c (s ++ stream.map view) = denote E c s ++ out.map view
  | [], s, st, h, _, _ => ⟨st, [], rfl, by simpa using h, by simp, by simp⟩
  | b :: bs, s, st, h, ha, hok => by
    have e : s ++ (b :: bs).map view = (s ++ [view b]) ++ bs.map view := by simp
    have hok' : Acceptable c (s ++ [view b]) := by
      rw [e] at hok
      generalize s ++ [view b] = u at hok
      cases c with
      | outlier v l => exact ⟨hok.1, fun r hr => hok.2 r (by rw [allRows_append]; exact List.mem_append_left _ hr)⟩
      | ply o cs =>
        by_cases hu : allRows u = []
        · exact ⟨fun r hr => absurd (hu ▸ hr) (by simp), fun r hr => absurd (hu ▸ hr) (by simp)⟩
        · refine ⟨fun r hr hc => hok.1 r (by rw [allRows_append]; exact List.mem_append_left _ hr) ?_,
            fun r hr hc => hok.2 r (by rw [allRows_append]; exact List.mem_append_left _ hr) ?_⟩
          · rw [colored_append hu]; exact hc
          · rw [intense_append hu]; exact hc
      | _ => trivial
    obtain ⟨st1, o, h1, h2, h3, h4⟩ := process_mid E h (ha b (by simp)) hok'
    rw [e] at hok
    obtain ⟨st2, os, i1, i2, i3, i4⟩ := runStage_mid E bs h2 (fun b hb => ha b (List.mem_cons_of_mem _ hb)) hok
    refine ⟨st2, o.toList ++ os, ?_, by rw [e]; exact i2, ?_, ?_⟩
    · simp only [runStage, h1, i1, Option.bind_eq_bind, Option.bind_some]
    · intro b' hb'
      rcases List.mem_append.1 hb' with hb' | hb'
      · exact h3 b' (by simpa using hb')
      · exact i3 b' hb'
    · rw [e, i4, h4, List.map_append, List.append_assoc]
      cases o <;> rfl

/-- The states of all stages. -/
def Mids (E : Env) : List Config → List SBatch → List Stage → Prop
  | [], _, ps => ps = []
  | c :: cs, s, ps => ∃ st rest, ps = st :: rest ∧ Mid E c s st ∧ Mids E cs (denote E c s) rest

/-- A stream passes through the first stages of a pipeline. -/
theorem run_first (E : Env) : ∀ (cs : List Config) {ps : List Stage} {stream : List Batch}, Mids E cs [] ps →
    (∀ b ∈ stream, Aligned b) → Fine E cs (stream.map view) → ∃ (ps' : List Stage) (out : List Batch), (∀ b ∈ out, Aligned b) ∧
      out.map view = denoteAll E cs (stream.map view) ∧ Mids E cs (stream.map view) ps' ∧
      ∀ rest, stream.foldlM (process E) (ps ++ rest) = (out.foldlM (process E) rest).map (ps' ++ ·)
  | [], ps, stream, h, ha, _ => by
    cases h
    refine ⟨[], stream, ha, rfl, rfl, fun rest => ?_⟩
    cases hr : stream.foldlM (process E) rest <;> simp [hr]
  | c :: cs, ps, stream, h, ha, hf => by
    obtain ⟨st, rest, rfl, h1, h2⟩ := h
    obtain ⟨st', out, r1, r2, r3, r4⟩ := runStage_mid E stream h1 ha hf.1
    rw [List.nil_append] at r2 r4
    rw [denote_nil, List.nil_append] at r4
    rw [denote_nil] at h2
    have hf2 := hf.2.2
    rw [r4] at hf2
    obtain ⟨ps', out', q1, q2, q3, q4⟩ := run_first E cs h2 r3 hf2
    refine ⟨st' :: ps', out', q1, ?_, ⟨st', ps', rfl, r2, by rw [r4]; exact q3⟩, fun rest' => ?_⟩
    · rw [q2, denoteAll, r4]
    · rw [List.cons_append, run_cons, r1, Option.bind_some]
      simp only [q4, Option.map_map]
      rfl

/-! ### Removing outliers -/

/-- The contents of the grid. -/
def Holds (g : VoxGrid) (m : I3 → Vox) : Prop := DynWf (baseLaws Vox Vox.zero) g ∧ ∀ i, dlook (baseLaws Vox Vox.zero) g i = m i

theorem holds_value {g : VoxGrid} {m : I3 → Vox} (h : Holds g m) (i : I3) : g.value Vox.zero i = some (m i) := by
  rw [dyn_value _ h.1, h.2]

theorem holds_modify {g : VoxGrid} {m : I3 → Vox} (h : Holds g m) {i : I3} (hi : Valid i) (f : Vox → Vox) :
    ∃ g', g.modify Vox.zero i f = some g' ∧ Holds g' (fun j => if j = i then f (m i) else m j) := by
  obtain ⟨g', e, hw, hl⟩ := modify_spec (baseLaws Vox Vox.zero) h.1 ((supported_base Vox.zero i).2 hi) f
  refine ⟨g', e, hw, fun j => ?_⟩
  rw [hl, h.2, h.2]

theorem holds_valid {g : VoxGrid} {m : I3 → Vox} (h : Holds g m) {i : I3} (hi : 0 < (m i).hits) : Valid i := by
  refine (supported_base Vox.zero i).1 (dlook_ne_supported _ h.1 ?_)
  rw [h.2]
  intro e
  rw [e] at hi
  exact absurd hi (Nat.lt_irrefl 0)

theorem phaseOne_spec {v : ℚ} : ∀ (ps : List P3) {g : VoxGrid} {m : I3 → Vox}, Holds g m → (∀ p ∈ ps, Valid (cell v p)) →
    ∃ g', ps.foldlM (fun (g : VoxGrid) p => g.modify Vox.zero (cell v p) (fun x => { x with hits := x.hits + 1 })) g = some g' ∧
      Holds g' (fun i => { m i with hits := (m i).hits + ps.countP (fun p => cell v p = i) })
  | [], g, m, h, _ => ⟨g, rfl, by simpa using h⟩
  | p :: ps, g, m, h, hv => by
    obtain ⟨g1, e1, h1⟩ := holds_modify h (hv p (by simp)) (fun x => { x with hits := x.hits + 1 })
    obtain ⟨g2, e2, h2⟩ := phaseOne_spec ps h1 (fun q hq => hv q (List.mem_cons_of_mem _ hq))
    refine ⟨g2, ?_, ?_⟩
    · rw [List.foldlM_cons, e1]; exact e2
    · have e : (fun i => ({ m i with hits := (m i).hits + (p :: ps).countP (fun p => cell v p = i) } : Vox)) =
        fun i => { (if i = cell v p then { m (cell v p) with hits := (m (cell v p)).hits + 1 } else m i) with
          hits := (if i = cell v p then { m (cell v p) with hits := (m (cell v p)).hits + 1 } else m i).hits +
            ps.countP (fun p => cell v p = i) } := by
        funext i
        by_cases hi : i = cell v p
        · subst hi
          simp
          omega
        · have hi' : ¬ cell v p = i := fun e => hi e.symm
          simp [hi, hi']
      rw [e]
      exact h2

/-- Counting rays in voxels with hits. -/
def addRays (v : ℚ) (m : I3 → Vox) (qs : List P3) : I3 → Vox := fun i =>
  if 0 < (m i).hits then { m i with rays := (m i).rays + qs.countP (fun q => cell v q = i) } else m i

theorem addRays_hits (v : ℚ) (m : I3 → Vox) (qs : List P3) (i : I3) : (addRays v m qs i).hits = (m i).hits := by
  unfold addRays; split <;> rfl

theorem addRays_nil (v : ℚ) (m : I3 → Vox) : addRays v m [] = m := by
  funext i
  unfold addRays
  split <;> rfl

theorem addRays_append (v : ℚ) (m : I3 → Vox) (qs qs' : List P3) : addRays v m (qs ++ qs') = addRays v (addRays v m qs) qs' := by
  funext i
  unfold addRays
  by_cases h : 0 < (m i).hits
  · simp [h, Nat.add_assoc]
  · simp [h]

theorem rayStep_spec {v : ℚ} {g : VoxGrid} {m : I3 → Vox} (h : Holds g m) (q : P3) : ∃ x g', g.value Vox.zero (cell v q) = some x ∧
    (if 0 < x.hits then g.modify Vox.zero (cell v q) (fun x => { x with rays := x.rays + 1 }) else some g) = some g' ∧
    Holds g' (addRays v m [q]) := by
  by_cases hh : 0 < (m (cell v q)).hits
  · obtain ⟨g1, e1, h1⟩ := holds_modify h (holds_valid h hh) (fun x => { x with rays := x.rays + 1 })
    refine ⟨_, g1, holds_value h _, by rw [if_pos hh, e1], ?_⟩
    have e : addRays v m [q] = fun j => if j = cell v q then { m (cell v q) with rays := (m (cell v q)).rays + 1 } else m j := by
      funext i
      unfold addRays
      by_cases hi : i = cell v q
      · subst hi
        simp [hh]
      · have hi' : ¬ cell v q = i := fun e => hi e.symm
        simp [hi, hi']
    rw [e]
    exact h1
  · refine ⟨_, g, holds_value h _, by rw [if_neg hh], ?_⟩
    have e : addRays v m [q] = m := by
      funext i
      unfold addRays
      by_cases hi : i = cell v q
      · subst hi
        simp [hh]
      · have hi' : ¬ cell v q = i := fun e => hi e.symm
        simp [hi']
    rw [e]
    exact h

theorem rayLoop_spec {v : ℚ} (hv : 0 < v) (o d : P3) (len : ℚ) : ∀ (n k : Nat) {g : VoxGrid} {m : I3 → Vox}, Holds g m →
    n + k = max k ⌈len / v⌉.toNat → ∃ g', rayLoop v o d len (n + 1) (k * v) g = some g' ∧
      Holds g' (addRays v m ((List.range' k n).map (fun j : Nat => P3.along o (j * v / len) d)))
  | n, k, g, m, h, hn => by
    have hiff : (k : ℚ) * v < len ↔ k < ⌈len / v⌉.toNat := by
      rw [← lt_div_iff₀ hv]
      constructor
      · intro hlt
        have : (k : Int) < ⌈len / v⌉ := Int.lt_ceil.2 (by exact_mod_cast hlt)
        omega
      · intro hlt
        have : (k : Int) < ⌈len / v⌉ := by omega
        exact_mod_cast Int.lt_ceil.1 this
    cases n with
    | zero =>
      refine ⟨g, ?_, by simpa [addRays_nil] using h⟩
      unfold rayLoop
      rw [if_neg (by rw [hiff]; omega)]
    | succ n =>
      have hlt : (k : ℚ) * v < len := by rw [hiff]; omega
      obtain ⟨x, g1, hx, hg, h1⟩ := rayStep_spec (v := v) h (P3.along o (k * v / len) d)
      obtain ⟨g2, e2, h2⟩ := rayLoop_spec hv o d len n (k + 1) h1 (by omega)
      refine ⟨g2, ?_, ?_⟩
      · unfold rayLoop
        rw [if_pos hlt]
        simp only [Option.bind_eq_bind, hx, Option.bind_some]
        have : (k : ℚ) * v + v = ((k + 1 : Nat) : ℚ) * v := by push_cast; ring
        rw [this]
        split
        · rename_i hp
          rw [if_pos hp] at hg
          rw [hg]
          exact e2
        · rename_i hp
          rw [if_neg hp] at hg
          cases hg
          exact e2
      · rw [List.range'_succ, List.map_cons, ← List.singleton_append, addRays_append]
        exact h2

theorem phaseTwo_spec (E : Env) {v : ℚ} (hv : 0 < v) (o : P3) : ∀ (ps : List P3) {g : VoxGrid} {m : I3 → Vox}, Holds g m →
    ∃ g', ps.foldlM (fun g p => rayLoop v o (P3.sub p o) (E.norm (P3.sub p o)) (⌈E.norm (P3.sub p o) / v⌉.toNat + 1) 0 g) g = some g' ∧
      Holds g' (addRays v m (ps.flatMap (onRay E v o)))
  | [], g, m, h => ⟨g, rfl, by simpa [addRays_nil] using h⟩
  | p :: ps, g, m, h => by
    obtain ⟨g1, e1, h1⟩ := rayLoop_spec hv o (P3.sub p o) (E.norm (P3.sub p o)) ⌈E.norm (P3.sub p o) / v⌉.toNat 0 h (by simp)
    obtain ⟨g2, e2, h2⟩ := phaseTwo_spec E hv o ps h1
    refine ⟨g2, ?_, ?_⟩
    · rw [List.foldlM_cons]
      rw [Nat.cast_zero, zero_mul] at e1
      rw [e1]
      exact e2
    · rw [List.flatMap_cons, addRays_append]
      have : onRay E v o p = (List.range' 0 ⌈E.norm (P3.sub p o) / v⌉.toNat).map
          (fun j : Nat => P3.along o (j * v / E.norm (P3.sub p o)) (P3.sub p o)) := by
        rw [onRay, List.range_eq_range']
      rw [this]
      exact h2

theorem points_rows (b : Batch) : (rows b).map Row.point = b.points := by
  apply List.ext_getElem?
  intro i
  rw [List.getElem?_map, rows_getElem?]
  cases b.points[i]? <;> rfl

/-- The hits of a stream. -/
def hitMap (v : ℚ) (s : List SBatch) : I3 → Vox := fun i => ⟨hitsIn v s i, 0⟩

/-- The sampled positions of all rays. -/
def rayPoints (E : Env) (v : ℚ) (s : List SBatch) : List P3 := s.flatMap (fun b => b.rows.flatMap (fun r => onRay E v b.origin r.point))

theorem hitsIn_snoc (v : ℚ) (s : List SBatch) (b : Batch) (i : I3) :
    hitsIn v (s ++ [view b]) i = hitsIn v s i + b.points.countP (fun p => cell v p = i) := by
  unfold hitsIn
  rw [allRows_snoc, List.countP_append]
  congr 1
  conv_rhs => rw [← points_rows b, List.countP_map]
  rfl

/-- The first pass. -/
theorem outlier_one (E : Env) {v l : ℚ} : ∀ (stream : List Batch) {s : List SBatch} {g : VoxGrid}, Holds g (hitMap v s) →
    (∀ r ∈ allRows (stream.map view), Valid (cell v r.point)) → ∃ g',
      runStage E (.outlier v l .one g) stream = some (.outlier v l .one g', []) ∧ Holds g' (hitMap v (s ++ stream.map view))
  | [], s, g, h, _ => ⟨g, rfl, by simpa using h⟩
  | b :: bs, s, g, h, hv => by
    have hv1 : ∀ p ∈ b.points, Valid (cell v p) := by
      intro p hp
      rw [← points_rows b] at hp
      obtain ⟨r, hr, rfl⟩ := List.mem_map.1 hp
      exact hv r (by simp only [allRows, List.map_cons, List.flatMap_cons]; exact List.mem_append_left _ hr)
    obtain ⟨g1, e1, h1⟩ := phaseOne_spec b.points h hv1
    have h1' : Holds g1 (hitMap v (s ++ [view b])) := by
      have : hitMap v (s ++ [view b]) = fun i =>
          { hitMap v s i with hits := (hitMap v s i).hits + b.points.countP (fun p => cell v p = i) } := by
        funext i
        simp only [hitMap, hitsIn_snoc]
      rw [this]
      exact h1
    obtain ⟨g2, e2, h2⟩ := outlier_one E (l := l) bs h1' (fun r hr => hv r (by
      simp only [allRows, List.map_cons, List.flatMap_cons]; exact List.mem_append_right _ hr))
    refine ⟨g2, ?_, by simpa using h2⟩
    simp only [runStage, Stage.process, phaseOne, e1, Option.bind_eq_bind, Option.bind_some, e2, Option.toList_none, List.nil_append]

/-- The second pass. -/
theorem outlier_two (E : Env) {v l : ℚ} (hv : 0 < v) (m : I3 → Vox) : ∀ (stream : List Batch) {s : List SBatch} {g : VoxGrid},
    Holds g (addRays v m (rayPoints E v s)) → ∃ g',
      runStage E (.outlier v l .two g) stream = some (.outlier v l .two g', []) ∧
      Holds g' (addRays v m (rayPoints E v (s ++ stream.map view)))
  | [], s, g, h => ⟨g, rfl, by simpa using h⟩
  | b :: bs, s, g, h => by
    obtain ⟨g1, e1, h1⟩ := phaseTwo_spec E hv b.origin b.points h
    have h1' : Holds g1 (addRays v m (rayPoints E v (s ++ [view b]))) := by
      rw [← addRays_append] at h1
      have : rayPoints E v (s ++ [view b]) = rayPoints E v s ++ b.points.flatMap (onRay E v b.origin) := by
        simp only [rayPoints, List.flatMap_append, List.flatMap_cons, List.flatMap_nil, List.append_nil]
        conv_rhs => rw [← points_rows b, List.flatMap_map]
        rfl
      rw [this]
      exact h1
    obtain ⟨g2, e2, h2⟩ := outlier_two E (l := l) hv m bs h1'
    refine ⟨g2, ?_, by simpa using h2⟩
    simp only [runStage, Stage.process, phaseTwo, e1, Option.bind_eq_bind, Option.bind_some, e2, Option.toList_none, List.nil_append]

theorem outliers_eq {v l : ℚ} {g : VoxGrid} {b : Batch} {ok : P3 → Bool}
    (h : ∀ p ∈ b.points, ∃ x, g.value Vox.zero (cell v p) = some x ∧ ok p = decide ((x.rays : ℚ) < l * x.hits)) :
    outliers v l g b = some (removeUnless ok b) := by
  unfold outliers removeUnless
  have key : ∀ n, n ≤ b.points.length → (List.range n).foldlM (fun (out : List Nat) i => do
      let p ← b.points[i]?
      let x ← g.value Vox.zero (cell v p)
      some (if (x.rays : ℚ) < l * x.hits then out else out ++ [i])) [] =
      some ((List.range n).filter (fun i => !(b.points[i]?.any ok))) := by
    intro n
    induction n with
    | zero => intro _; rfl
    | succ n ih =>
      intro hn
      rw [List.range_succ, List.foldlM_append, ih (by omega), List.filter_append]
      obtain ⟨x, hx, ho⟩ := h b.points[n] (List.getElem_mem _)
      simp only [Option.bind_eq_bind, Option.bind_some, List.foldlM_cons, List.foldlM_nil, List.filter_cons, List.filter_nil]
      rw [List.getElem?_eq_getElem (l := b.points) (by omega)]
      simp only [Option.bind_some, hx, Option.any_some, ho]
      by_cases hc : (x.rays : ℚ) < l * x.hits
      · simp [hc]
      · simp [hc]
  exact key _ (le_refl _)

/-- The third pass. -/
theorem outlier_three (E : Env) {v l : ℚ} {s : List SBatch} {g : VoxGrid} (h : Holds g (addRays v (hitMap v s) (rayPoints E v s))) :
    ∀ (stream : List Batch), (∀ b ∈ stream, Aligned b) → (∀ b ∈ stream, view b ∈ s) → ∃ out,
      runStage E (.outlier v l .three g) stream = some (.outlier v l .three g, out) ∧ (∀ b ∈ out, Aligned b) ∧
      out.map view = (stream.map view).map (fun b => b.only (fun r => solid E v l s r.point))
  | [], _, _ => ⟨[], rfl, by simp, rfl⟩
  | b :: bs, ha, hm => by
    have hok : ∀ p ∈ b.points, ∃ x, g.value Vox.zero (cell v p) = some x ∧
        solid E v l s p = decide ((x.rays : ℚ) < l * x.hits) := by
      intro p hp
      refine ⟨_, holds_value h _, ?_⟩
      have hpos : 0 < hitsIn v s (cell v p) := by
        unfold hitsIn
        rw [List.countP_pos_iff]
        rw [← points_rows b] at hp
        obtain ⟨r, hr, rfl⟩ := List.mem_map.1 hp
        refine ⟨r, ?_, by simp⟩
        exact List.mem_flatMap.2 ⟨view b, hm b (by simp), hr⟩
      have hpos' : 0 < (hitMap v s (cell v p)).hits := hpos
      simp only [addRays, hpos', if_true]
      simp only [solid, raysIn, hitMap, rayPoints, Nat.zero_add]
      exact decide_eq_decide.2 Iff.rfl
    obtain ⟨b', e1, e2, e3⟩ := removeUnless_spec (solid E v l s) (ha b (by simp))
    obtain ⟨out, i1, i2, i3⟩ := outlier_three E (l := l) h bs (fun c hc => ha c (List.mem_cons_of_mem _ hc))
      (fun c hc => hm c (List.mem_cons_of_mem _ hc))
    refine ⟨b' :: out, ?_, ?_, ?_⟩
    · simp only [runStage, Stage.process, outliers_eq hok, e1, Option.bind_eq_bind, Option.bind_some, i1]
      rfl
    · intro c hc
      rcases List.mem_cons.1 hc with rfl | hc
      · exact e2
      · exact i2 c hc
    · simp only [List.map_cons, e3, i3]

/-! ### Flushing -/

theorem padded_length {n : Nat} (h : n < 10 ^ 15) : (padded n).length = 15 := by
  have := (Nat.length_toDigits_le_iff (b := 10) (n := n) (k := 15) (by omega) (by omega)).2 h
  simp only [padded, List.length_append, List.length_replicate]
  omega

theorem length_left {a b c : List Char} (h : a.length = b.length) : (a ++ c).length = (b ++ c).length := by
  rw [List.length_append, List.length_append, h]

theorem length_right {a b c : List Char} (h : a.length = b.length) : (c ++ a).length = (c ++ b).length := by
  rw [List.length_append, List.length_append, h]

theorem length_both {a b c d : List Char} (h : a.length = b.length) (h' : c.length = d.length) :
    (a ++ c).length = (b ++ d).length := by rw [List.length_append, List.length_append, h, h']

theorem plyHeader_length {hc hi : Bool} {cs : List String} {n m : Nat} (hn : n < 10 ^ 15) (hm : m < 10 ^ 15) :
    (plyHeader hc hi cs n).length = (plyHeader hc hi cs m).length := by
  unfold plyHeader
  refine length_left (length_left (length_left (length_left (length_right ?_))))
  rw [padded_length hn, padded_length hm]

theorem pcdHeader_length {hc : Bool} {n m : Nat} (hn : n < 10 ^ 15) (hm : m < 10 ^ 15) :
    (pcdHeader hc n).length = (pcdHeader hc m).length := by
  unfold pcdHeader
  refine length_left (length_both (length_left (length_right ?_)) ?_) <;> rw [padded_length hn, padded_length hm]

/-- Flushing a stage before stages that finish. -/
theorem flush_final (E : Env) {c : Config} {s : List SBatch} {st : Stage} (h : Mid E c s st) (hw : Writable c s)
    {rest rest' : List Stage} (hr : flush rest = some (rest', .finished)) :
    ∃ st', flush (st :: rest) = some (st' :: rest', .finished) ∧ Final E c s st' := by
  cases c with
  | counting => cases h; exact ⟨_, by simp only [flush, hr, Option.bind_eq_bind, Option.bind_some], rfl⟩
  | sampling r =>
    obtain ⟨_, _, rfl⟩ := h
    exact ⟨_, by simp only [flush, hr, Option.bind_eq_bind, Option.bind_some]; rfl, trivial⟩
  | minMax lo hi => cases h; exact ⟨_, by simp only [flush, hr, Option.bind_eq_bind, Option.bind_some]; rfl, trivial⟩
  | vertical lo hi => cases h; exact ⟨_, by simp only [flush, hr, Option.bind_eq_bind, Option.bind_some]; rfl, trivial⟩
  | frameId keep drop =>
    obtain ⟨_, rfl⟩ := h
    exact ⟨_, by simp only [flush, hr, Option.bind_eq_bind, Option.bind_some]; rfl, trivial⟩
  | coloring c frame => cases h; exact ⟨_, by simp only [flush, hr, Option.bind_eq_bind, Option.bind_some]; rfl, trivial⟩
  | intensity lo hi frame => cases h; exact ⟨_, by simp only [flush, hr, Option.bind_eq_bind, Option.bind_some]; rfl, trivial⟩
  | outlier v l => exact h.elim
  | xyz o =>
    cases h
    exact ⟨_, by simp only [flush, hr, Option.bind_eq_bind, Option.bind_some]; rfl, _, rfl, rfl, rfl⟩
  | ply o cs =>
    rcases h with ⟨hs, rfl⟩ | ⟨hs, rfl⟩
    · have := hw.1
      rw [hs] at this
      exact absurd this (Nat.lt_irrefl 0)
    · obtain ⟨f, e1, e2, e3⟩ := header_again o (plyHeader_length (hc := colored s) (hi := intense s) (cs := cs) hw.2
        (m := 0) (by norm_num)) ((allRows s).flatMap (plyRecord E (colored s) (intense s)))
      exact ⟨_, by simp only [flush, hr, e1, Option.bind_eq_bind, Option.bind_some]; rfl, f.close, _, _, _, rfl, rfl, e3⟩
  | pcd o =>
    rcases h with ⟨hs, rfl⟩ | ⟨hs, rfl⟩
    · refine ⟨_, by simp only [flush, hr, header_new, Option.bind_eq_bind, Option.bind_some]; rfl, _, _, _, rfl, rfl, ?_⟩
      have : colored s = false := by simp [colored, hs]
      simp [hs, this, atEnd, File.close]
    · obtain ⟨f, e1, e2, e3⟩ := header_again o (pcdHeader_length (hc := colored s) hw
        (m := 0) (by norm_num)) ((allRows s).flatMap (pcdRecord E))
      exact ⟨_, by simp only [flush, hr, e1, Option.bind_eq_bind, Option.bind_some]; rfl, f.close, _, _, rfl, rfl, e3⟩
  | grid =>
    obtain ⟨seen, rfl, hs⟩ := h
    exact ⟨_, by simp only [flush, hr, Option.bind_eq_bind, Option.bind_some], _, rfl, hs⟩

theorem flush_finals (E : Env) : ∀ (cs : List Config) {s : List SBatch} {ps rest rest' : List Stage}, Mids E cs s ps → Fine E cs s →
    flush rest = some (rest', .finished) → ∃ ps', flush (ps ++ rest) = some (ps' ++ rest', .finished) ∧ Finals E cs s ps'
  | [], s, ps, rest, rest', h, _, hr => by cases h; exact ⟨[], hr, rfl⟩
  | c :: cs, s, ps, rest, rest', h, hf, hr => by
    obtain ⟨st, ps, rfl, h1, h2⟩ := h
    obtain ⟨ps', i1, i2⟩ := flush_finals E cs h2 hf.2.2 hr
    obtain ⟨st', j1, j2⟩ := flush_final E h1 hf.2.1 i1
    exact ⟨st' :: ps', j1, st', ps', rfl, j2, i2⟩

/-- The states of new stages. -/
theorem create_mid (E : Env) {c : Config} (hc : ¬ IsOutlier c) {st : Stage} (h : create c = some st) : Mid E c [] st := by
  cases c with
  | sampling r =>
    simp only [create, Sampler.mk] at h
    split at h
    · rename_i hr
      rw [if_pos ⟨hr.1.le, hr.2.le⟩] at h
      simp only [Option.map_some, Option.some.injEq] at h
      subst h
      refine ⟨hr.1.le, hr.2.le, ?_⟩
      simp [samplerAt, allRows]
    · cases h
  | frameId keep drop =>
    simp only [create] at h
    split at h
    · cases h
    · rename_i hne
      cases h
      exact ⟨hne, rfl⟩
  | outlier v l => exact absurd trivial hc
  | xyz o =>
    cases h
    cases o <;> rfl
  | ply o cs => cases h; exact .inl ⟨rfl, rfl⟩
  | pcd o => cases h; exact .inl ⟨rfl, rfl⟩
  | grid => cases h; exact ⟨[], rfl, rfl⟩
  | _ => cases h; rfl

theorem createAll_mids (E : Env) : ∀ {cs : List Config} {ps : List Stage}, (∀ c ∈ cs, ¬ IsOutlier c) → createAll cs = some ps →
    Mids E cs [] ps
  | [], ps, _, h => by
    simp only [createAll, List.mapM_nil] at h
    cases h
    rfl
  | c :: cs, ps, hc, h => by
    simp only [createAll, List.mapM_cons, Option.bind_eq_bind, Option.bind_eq_some_iff] at h
    obtain ⟨st, h1, rest, h2, h3⟩ := h
    cases h3
    refine ⟨st, rest, rfl, create_mid E (hc c (by simp)) h1, ?_⟩
    rw [denote_nil]
    exact createAll_mids E (fun c hc' => hc c (List.mem_cons_of_mem _ hc')) h2

/-- Stages that support it are reset before another pass. -/
theorem flush_restart (E : Env) {c : Config} (hc : Restartable c) {s : List SBatch} {st st₀ : Stage} (h : Mid E c s st)
    (h0 : create c = some st₀) {rest rest' : List Stage} (hr : flush rest = some (rest', .restart)) :
    flush (st :: rest) = some (st₀ :: rest', .restart) := by
  cases c with
  | counting => cases h; cases h0; simp only [flush, hr, Option.bind_eq_bind, Option.bind_some]
  | sampling r =>
    obtain ⟨_, _, rfl⟩ := h
    simp only [create] at h0
    split at h0
    · obtain ⟨s', e1, e2⟩ := Option.map_eq_some_iff.1 h0
      subst e2
      simp only [flush, hr, e1, Option.bind_eq_bind, Option.bind_some]
    · cases h0
  | minMax lo hi => cases h; cases h0; simp only [flush, hr, Option.bind_eq_bind, Option.bind_some]
  | vertical lo hi => cases h; cases h0; simp only [flush, hr, Option.bind_eq_bind, Option.bind_some]
  | frameId keep drop =>
    obtain ⟨hne, rfl⟩ := h
    simp only [create, if_neg hne] at h0
    cases h0
    simp only [flush, hr, Option.bind_eq_bind, Option.bind_some]
  | coloring c frame => cases h; cases h0; simp only [flush, hr, Option.bind_eq_bind, Option.bind_some]
  | intensity lo hi frame => cases h; cases h0; simp only [flush, hr, Option.bind_eq_bind, Option.bind_some]
  | _ => exact hc.elim

theorem flush_restarts (E : Env) : ∀ {cs : List Config} {s : List SBatch} {ps ps₀ rest rest' : List Stage}, (∀ c ∈ cs, Restartable c) →
    Mids E cs s ps → createAll cs = some ps₀ → flush rest = some (rest', .restart) →
    flush (ps ++ rest) = some (ps₀ ++ rest', .restart)
  | [], s, ps, ps₀, rest, rest', _, h, h0, hr => by
    cases h
    simp only [createAll, List.mapM_nil] at h0
    cases h0
    exact hr
  | c :: cs, s, ps, ps₀, rest, rest', hc, h, h0, hr => by
    simp only [createAll, List.mapM_cons, Option.bind_eq_bind, Option.bind_eq_some_iff] at h0
    obtain ⟨st₀, h1, rest₀, h2, h3⟩ := h0
    cases h3
    obtain ⟨st, ps, rfl, h4, h5⟩ := h
    exact flush_restart E (hc c (by simp)) h4 h1 (flush_restarts E (fun c hc' => hc c (List.mem_cons_of_mem _ hc')) h5 h2 hr)

theorem fine_append (E : Env) : ∀ (cs ds : List Config) (s : List SBatch), Fine E (cs ++ ds) s ↔ Fine E cs s ∧ Fine E ds (denoteAll E cs s)
  | [], ds, s => by simp [Fine, denoteAll]
  | c :: cs, ds, s => by
    simp only [List.cons_append, Fine, denoteAll, fine_append E cs ds]
    tauto

theorem finals_append (E : Env) : ∀ {cs ds : List Config} {s : List SBatch} {ps qs : List Stage}, Finals E cs s ps →
    Finals E ds (denoteAll E cs s) qs → Finals E (cs ++ ds) s (ps ++ qs)
  | [], ds, s, ps, qs, h, h' => by cases h; exact h'
  | c :: cs, ds, s, ps, qs, h, h' => by
    obtain ⟨st, rest, rfl, h1, h2⟩ := h
    exact ⟨st, rest ++ qs, rfl, h1, finals_append E h2 h'⟩

theorem createAll_append {cs ds : List Config} {ps : List Stage} (h : createAll (cs ++ ds) = some ps) :
    ∃ p q, createAll cs = some p ∧ createAll ds = some q ∧ ps = p ++ q := by
  simp only [createAll, List.mapM_append, Option.bind_eq_bind, Option.bind_eq_some_iff] at h
  obtain ⟨p, h1, q, h2, h3⟩ := h
  cases h3
  exact ⟨p, q, h1, h2, rfl⟩

/-- **C66**: a pipeline without outlier removal reads the stream once; every stage ends in the state given by all the data that
the earlier stages passed on. -/
theorem pipeline_single_pass (E : Env) {cs : List Config} {ps : List Stage} (hc : createAll cs = some ps)
    (hno : ∀ c ∈ cs, ¬ IsOutlier c) {stream : List Batch} (ha : ∀ b ∈ stream, Aligned b) (hf : Fine E cs (stream.map view))
    {n : Nat} (hn : 1 ≤ n) : ∃ ps', drive E stream n ps = .finished ps' ∧ Finals E cs (stream.map view) ps' := by
  obtain ⟨n, rfl⟩ : ∃ k, n = k + 1 := ⟨n - 1, by omega⟩
  obtain ⟨ps1, out, h1, h2, h3, h4⟩ := run_first E cs (createAll_mids E hno hc) ha hf
  obtain ⟨ps2, h5, h6⟩ := flush_finals E cs h3 hf (rest := []) (rest' := []) rfl
  refine ⟨ps2, ?_, h6⟩
  have hnil : ∀ l : List Batch, l.foldlM (process E) [] = some [] := by
    intro l
    induction l with
    | nil => rfl
    | cons b l ih => rw [List.foldlM_cons]; exact ih
  have h7 := h4 []
  rw [hnil, List.append_nil] at h7
  simp only [Option.map_some, List.append_nil] at h5 h7
  simp only [drive, pass, h7, h5, Option.bind_eq_bind, Option.bind_some]

/-- **C66**: with one outlier removal, preceded by stages that support several passes, the stream is read three times; the
outlier removal passes on the points that lie in voxels for which the number of rays through it is less than the limit times the
number of points in it, counted over all the data that reaches the stage, and every later stage ends in the state given by these
points. -/
theorem pipeline_three_passes (E : Env) {pre post : List Config} {v l : ℚ} {ps : List Stage}
    (hc : createAll (pre ++ .outlier v l :: post) = some ps) (hpre : ∀ c ∈ pre, Restartable c) (hpost : ∀ c ∈ post, ¬ IsOutlier c)
    {stream : List Batch} (ha : ∀ b ∈ stream, Aligned b) (hf : Fine E (pre ++ .outlier v l :: post) (stream.map view))
    {n : Nat} (hn : 3 ≤ n) : ∃ ps', drive E stream n ps = .finished ps' ∧
      Finals E (pre ++ .outlier v l :: post) (stream.map view) ps' := by
  obtain ⟨n, rfl⟩ : ∃ k, n = k + 3 := ⟨n - 3, by omega⟩
  obtain ⟨p, q, hp, hq, rfl⟩ := createAll_append hc
  simp only [createAll, List.mapM_cons, Option.bind_eq_bind, Option.bind_eq_some_iff] at hq
  obtain ⟨st, hst, q, hq, he⟩ := hq
  cases hst
  cases he
  have hpre' : ∀ c ∈ pre, ¬ IsOutlier c := by
    intro c hc' ho
    have := hpre c hc'
    cases c <;> first | exact this | exact ho
  rw [fine_append] at hf
  obtain ⟨hf1, hf2, -, hf3⟩ := hf
  obtain ⟨p1, t, ht, htv, hm, hrun⟩ := run_first E pre (createAll_mids E hpre' hp) ha hf1
  rw [← htv] at hf2 hf3
  -- the three passes of the outlier removal
  obtain ⟨g1, r1, w1⟩ := outlier_one E (v := v) (l := l) t (s := []) (g := Dyn.empty _)
    ⟨empty_wf _, fun i => by rw [empty_dlook]; simp [hitMap, hitsIn, allRows, Vox.zero]⟩ hf2.2
  rw [List.nil_append] at w1
  obtain ⟨g2, r2, w2⟩ := outlier_two E (v := v) (l := l) hf2.1 (hitMap v (t.map view)) t (s := []) (g := g1)
    (by simpa [rayPoints, addRays_nil] using w1)
  rw [List.nil_append] at w2
  obtain ⟨out, r3, ha3, hv3⟩ := outlier_three E (v := v) (l := l) w2 t ht (fun b hb => List.mem_map.2 ⟨b, hb, rfl⟩)
  have hd : denote E (.outlier v l) (t.map view) = out.map view := hv3.symm
  rw [hd] at hf3
  obtain ⟨q1, out', -, -, hm3, hrun3⟩ := run_first E post (createAll_mids E hpost hq) ha3 hf3
  obtain ⟨q2, hfl, hfin⟩ := flush_finals E post hm3 hf3 (rest := []) (rest' := []) rfl
  have hnil : ∀ l : List Batch, l.foldlM (process E) [] = some [] := by
    intro l
    induction l with
    | nil => rfl
    | cons b l ih => rw [List.foldlM_cons]; exact ih
  have hpost' := hrun3 []
  rw [hnil] at hpost'
  simp only [Option.map_some, List.append_nil] at hpost' hfl
  have pass1 : pass E (p ++ .outlier v l .one (Dyn.empty _) :: q) stream = some (p ++ .outlier v l .two g1 :: q, .restart) := by
    unfold pass
    rw [hrun, run_cons, r1]
    simp only [Option.bind_some, List.foldlM_nil, Option.bind_eq_bind]
    exact flush_restarts E hpre hm hp rfl
  have pass2 : pass E (p ++ .outlier v l .two g1 :: q) stream = some (p ++ .outlier v l .three g2 :: q, .restart) := by
    unfold pass
    rw [hrun, run_cons, r2]
    simp only [Option.bind_some, List.foldlM_nil, Option.bind_eq_bind]
    exact flush_restarts E hpre hm hp rfl
  obtain ⟨p2, hp2, hfp⟩ := flush_finals E pre hm hf1 (rest := .outlier v l .three g2 :: q1) (rest' := .outlier v l .three g2 :: q2)
    (by simp only [flush, hfl, Option.bind_eq_bind, Option.bind_some])
  have pass3 : pass E (p ++ .outlier v l .three g2 :: q) stream = some (p2 ++ .outlier v l .three g2 :: q2, .finished) := by
    unfold pass
    rw [hrun, run_cons, r3]
    simp only [Option.bind_some, hpost', Option.map_some, Option.bind_eq_bind]
    exact hp2
  refine ⟨p2 ++ .outlier v l .three g2 :: q2, ?_, finals_append E hfp ⟨_, q2, rfl, trivial, ?_⟩⟩
  · simp only [drive, pass1, pass2, pass3]
  · rw [← htv, hd]
    exact hfin

end Verif.Points
