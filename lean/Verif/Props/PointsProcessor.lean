import Verif.Props.PointsProcessorSpec

/-!
# C66: what a pipeline of points processors computes; C67: which pipelines abort
-/

namespace Verif.Points

open Verif.Compressed Verif.Hybrid

/-! ### Files -/

/-- A file to which `c` was written. -/
def atEnd (o : Bool) (c : List Char) : File := ⟨o, if o then c else [], if o then c.length else 0, false⟩

theorem write_atEnd (o : Bool) (c d : List Char) : (atEnd o c).write d = some (atEnd o (c ++ d)) := by
  cases o <;> simp [atEnd, File.write]

theorem header_new (o : Bool) (h : List Char) : (File.new o).writeHeader h = some (atEnd o h) := by
  cases o <;> simp [atEnd, File.write, File.writeHeader, File.new]

theorem header_again (o : Bool) {h h' : List Char} (hl : h'.length = h.length) (c : List Char) :
    ∃ f, (atEnd o (h ++ c)).writeHeader h' = some f ∧ f.closed = false ∧ f.bytes = if o then h' ++ c else [] := by
  cases o with
  | true =>
    refine ⟨_, rfl, rfl, ?_⟩
    simp [atEnd, hl]
  | false => exact ⟨_, rfl, rfl, by simp [atEnd]⟩

/-! ### Sampling -/

/-- The sampler after `k` pulses. -/
def samplerAt (r : ℚ) (k : Nat) : Sampler.State := ⟨r, k, ⌈r * k⌉.toNat⟩

theorem pulse_at {r : ℚ} (h0 : 0 ≤ r) (h1 : r ≤ 1) (k : Nat) :
    Sampler.pulse (samplerAt r k) = (samplerAt r (k + 1), sampled r k) := by
  have hk : (0 : ℚ) ≤ r * k := mul_nonneg h0 (by positivity)
  have hk1 : (0 : ℚ) < (k : ℚ) + 1 := by positivity
  have hc : (0 : Int) ≤ ⌈r * k⌉ := Int.ceil_nonneg hk
  have hcast : ((⌈r * k⌉.toNat : Nat) : ℚ) = (⌈r * k⌉ : ℚ) := by
    have : ((⌈r * k⌉.toNat : Nat) : Int) = ⌈r * k⌉ := Int.toNat_of_nonneg hc
    exact_mod_cast congrArg (Int.cast (R := ℚ)) this
  unfold Sampler.pulse samplerAt
  simp only [Nat.cast_add, Nat.cast_one]
  rw [hcast]
  by_cases h : (⌈r * k⌉ : ℚ) / (k + 1) < r
  · have h' : (⌈r * k⌉ : ℚ) < r * (k + 1) := (div_lt_iff₀ hk1).1 h
    have e : ⌈r * (k + 1)⌉ = ⌈r * k⌉ + 1 := by
      rw [Int.ceil_eq_iff]
      push_cast
      have := Int.le_ceil (r * k)
      constructor <;> nlinarith
    rw [if_pos h]
    have : sampled r k = true := by
      simp only [sampled, decide_eq_true_eq, e]
      omega
    rw [this, e]
    congr 2
    omega
  · have h' : r * (k + 1) ≤ ⌈r * k⌉ := by
      have := mt (div_lt_iff₀ hk1).2 h
      exact not_lt.1 this
    have e : ⌈r * (k + 1)⌉ = ⌈r * k⌉ := by
      rw [Int.ceil_eq_iff]
      have := Int.ceil_lt_add_one (r * k)
      constructor <;> nlinarith
    rw [if_neg h]
    have : sampled r k = false := by
      simp only [sampled, e]
      simp
    rw [this, e]

theorem sampleLoop_at {r : ℚ} (h0 : 0 ≤ r) (h1 : r ≤ 1) (k : Nat) : ∀ n,
    sampleLoop n (samplerAt r k) = (samplerAt r (k + n), (List.range n).filter (fun i => !sampled r (k + i)))
  | 0 => rfl
  | n + 1 => by
    unfold sampleLoop
    rw [List.range_succ, List.foldl_append]
    have := sampleLoop_at h0 h1 k n
    unfold sampleLoop at this
    rw [this]
    simp only [List.foldl_cons, List.foldl_nil, pulse_at h0 h1, List.filter_append, List.filter_cons, List.filter_nil]
    cases sampled r (k + n) <;> simp [Nat.add_assoc]

theorem sampleFrom_append (r : ℚ) : ∀ (s : List SBatch) (k : Nat) (b : SBatch), sampleFrom r k (s ++ [b]) =
    sampleFrom r k s ++ [{ b with rows := atPositions (fun i => sampled r (k + (allRows s).length + i)) b.rows }]
  | [], k, b => by simp [sampleFrom, allRows]
  | a :: s, k, b => by
    have : (allRows (a :: s)).length = a.rows.length + (allRows s).length := by simp [allRows]
    simp only [List.cons_append, sampleFrom]
    rw [sampleFrom_append r s, this]
    simp [Nat.add_assoc]

theorem atPositions_congr {α : Type} {p q : Nat → Bool} {l : List α} (h : ∀ i, i < l.length → p i = q i) :
    atPositions p l = atPositions q l := by
  induction l using List.reverseRecOn with
  | nil => rfl
  | append_singleton l x ih =>
    rw [atPositions_append, atPositions_append, ih (fun i hi => h i (by simp; omega)), h l.length (by simp)]

/-! ### Writers -/

theorem foldlM_range_rows {f : Nat → File → Option File} {o : Bool} {b : Batch} {rec : Row → List Char}
    (h : ∀ i (hi : i < b.points.length) c, f i (atEnd o c) =
      some (atEnd o (c ++ rec ⟨b.points[i], b.intensities[i]?, b.colors[i]?⟩))) (c : List Char) :
    (List.range b.points.length).foldlM (fun g i => f i g) (atEnd o c) = some (atEnd o (c ++ (rows b).flatMap rec)) := by
  have key : ∀ n, n ≤ b.points.length → (List.range n).foldlM (fun g i => f i g) (atEnd o c) =
      some (atEnd o (c ++ ((rows b).take n).flatMap rec)) := by
    intro n
    induction n with
    | zero => intro _; simp
    | succ n ih =>
      intro hn
      rw [List.range_succ, List.foldlM_append, ih (by omega)]
      simp only [Option.bind_eq_bind, Option.bind_some, List.foldlM_cons, List.foldlM_nil]
      rw [h n (by omega), List.take_succ, rows_getElem?, List.getElem?_eq_getElem (l := b.points) (by omega)]
      simp
  have := key _ (le_refl _)
  rwa [List.take_of_length_le (by rw [rows_length])] at this

theorem writePly_rows (E : Env) {hc hi o : Bool} {b : Batch} (h1 : hc = true → b.colors.length = b.points.length)
    (h2 : hi = true → b.intensities.length = b.points.length) (c : List Char) :
    (List.range b.points.length).foldlM (fun f i => writePlyPoint E hc hi b i f) (atEnd o c) =
      some (atEnd o (c ++ (rows b).flatMap (plyRecord E hc hi))) := by
  refine foldlM_range_rows ?_ c
  intro i hi' c
  unfold writePlyPoint
  rw [List.getElem?_eq_getElem hi']
  simp only [Option.bind_eq_bind, Option.bind_some, write_atEnd]
  cases hc with
  | false =>
    cases hi with
    | false => simp [plyRecord]
    | true =>
      rw [List.getElem?_eq_getElem (l := b.intensities) (by rw [h2 rfl]; exact hi')]
      simp [plyRecord, write_atEnd]
  | true =>
    rw [List.getElem?_eq_getElem (l := b.colors) (by rw [h1 rfl]; exact hi')]
    cases hi with
    | false => simp [plyRecord, write_atEnd]
    | true =>
      rw [List.getElem?_eq_getElem (l := b.intensities) (by rw [h2 rfl]; exact hi')]
      simp [plyRecord, write_atEnd]

theorem writePcd_rows (E : Env) {o : Bool} {b : Batch} (ha : Aligned b) (c : List Char) :
    (List.range b.points.length).foldlM (fun f i => writePcdPoint E b i f) (atEnd o c) =
      some (atEnd o (c ++ (rows b).flatMap (pcdRecord E))) := by
  refine foldlM_range_rows ?_ c
  intro i hi c
  unfold writePcdPoint
  rw [List.getElem?_eq_getElem hi]
  simp only [Option.bind_eq_bind, Option.bind_some, write_atEnd]
  by_cases hc : b.colors = []
  · simp [hc, pcdRecord]
  · have : b.colors.length = b.points.length := ha.1.resolve_left hc
    rw [if_neg hc, List.getElem?_eq_getElem (l := b.colors) (by omega)]
    simp [pcdRecord, write_atEnd]

theorem writeXyz_rows (E : Env) {o : Bool} {b : Batch} (c : List Char) :
    b.points.foldlM (fun f p => f.write (E.line p)) (atEnd o c) =
      some (atEnd o (c ++ (rows b).flatMap (fun r => E.line r.point))) := by
  have : (rows b).flatMap (fun r => E.line r.point) = b.points.flatMap E.line := by
    have : b.points = (rows b).map Row.point := by
      apply List.ext_getElem?
      intro i
      rw [List.getElem?_map, rows_getElem?]
      cases b.points[i]? <;> rfl
    conv_rhs => rw [this, List.flatMap_map]
  rw [this]
  generalize b.points = l
  induction l generalizing c with
  | nil => simp
  | cons p l ih =>
    rw [List.foldlM_cons, write_atEnd]
    show List.foldlM _ _ _ = _
    rw [ih]
    simp

/-! ### States of the stages -/

/-- The state of a stage (other than the outlier removal) that has processed `s` in this pass. -/
def Mid (E : Env) : Config → List SBatch → Stage → Prop
  | .counting, s, st => st = .counting (allRows s).length
  | .sampling r, s, st => 0 ≤ r ∧ r ≤ 1 ∧ st = .sampling r (samplerAt r (allRows s).length)
  | .minMax lo hi, _, st => st = .minMax (lo * lo) (hi * hi)
  | .vertical lo hi, _, st => st = .vertical lo hi
  | .frameId keep drop, _, st => keep.isEmpty ≠ drop.isEmpty ∧ st = .frameId keep drop
  | .coloring c frame, _, st => st = .coloring c frame
  | .intensity lo hi frame, _, st => st = .intensity lo hi frame
  | .outlier _ _, _, _ => False
  | .xyz o, s, st => st = .xyz (atEnd o ((allRows s).flatMap (fun r => E.line r.point)))
  | .ply o comments, s, st =>
    (allRows s = [] ∧ st = .ply comments 0 false none (.new o)) ∨
    (allRows s ≠ [] ∧ st = .ply comments (allRows s).length (colored s) (some (intense s))
      (atEnd o (plyHeader (colored s) (intense s) comments 0 ++ (allRows s).flatMap (plyRecord E (colored s) (intense s)))))
  | .pcd o, s, st =>
    (allRows s = [] ∧ st = .pcd 0 false (.new o)) ∨
    (allRows s ≠ [] ∧ st = .pcd (allRows s).length (colored s)
      (atEnd o (pcdHeader (colored s) 0 ++ (allRows s).flatMap (pcdRecord E))))
  | .grid, s, st => ∃ seen, st = .grid seen false ∧ seen.map view = s

theorem rows_nil_iff (b : Batch) : rows b = [] ↔ b.points = [] := by
  rw [← List.length_eq_zero_iff, rows_length, List.length_eq_zero_iff]

theorem colored_append {s : List SBatch} (h : allRows s ≠ []) (t : List SBatch) : colored (s ++ t) = colored s := by
  unfold colored
  rw [allRows_append, List.head?_append]
  cases hs : (allRows s).head? with
  | none => exact absurd (List.head?_eq_none_iff.1 hs) h
  | some r => rfl

theorem intense_append {s : List SBatch} (h : allRows s ≠ []) (t : List SBatch) : intense (s ++ t) = intense s := by
  unfold intense
  rw [allRows_append, List.head?_append]
  cases hs : (allRows s).head? with
  | none => exact absurd (List.head?_eq_none_iff.1 hs) h
  | some r => rfl

theorem rows_head {b : Batch} (h : b.points ≠ []) : ∃ p, (rows b).head? = some ⟨p, b.intensities[0]?, b.colors[0]?⟩ := by
  rw [List.head?_eq_getElem?, rows_getElem?]
  cases hp : b.points with
  | nil => exact absurd hp h
  | cons p l => exact ⟨p, rfl⟩

theorem colored_first {s : List SBatch} (hs : allRows s = []) {b : Batch} (h : b.points ≠ []) :
    colored (s ++ [view b]) = !b.colors.isEmpty := by
  obtain ⟨p, hp⟩ := rows_head h
  unfold colored
  rw [allRows_snoc, hs, List.nil_append, hp]
  cases b.colors <;> rfl

theorem intense_first {s : List SBatch} (hs : allRows s = []) {b : Batch} (h : b.points ≠ []) :
    intense (s ++ [view b]) = !b.intensities.isEmpty := by
  obtain ⟨p, hp⟩ := rows_head h
  unfold intense
  rw [allRows_snoc, hs, List.nil_append, hp]
  cases b.intensities <;> rfl

theorem denote_nil (E : Env) (c : Config) : denote E c [] = [] := by cases c <;> rfl

/-- The lengths of a batch that a PLY writer accepts. -/
theorem ply_lengths {b : Batch} (ha : Aligned b) (hp : b.points ≠ []) {hc hi : Bool}
    (h1 : ∀ r ∈ rows b, hc = true → r.color.isSome) (h2 : ∀ r ∈ rows b, hi = true → r.intensity.isSome) :
    (hc = true → b.colors.length = b.points.length) ∧ (hi = true → b.intensities.length = b.points.length) := by
  obtain ⟨p, hr⟩ := rows_head hp
  have hm := List.mem_of_head? hr
  refine ⟨fun h => ?_, fun h => ?_⟩
  · rcases ha.1 with e | e
    · have := h1 _ hm h
      simp [e] at this
    · exact e
  · rcases ha.2 with e | e
    · have := h2 _ hm h
      simp [e] at this
    · exact e

/-- One batch. -/
theorem process_mid (E : Env) {c : Config} {s : List SBatch} {st : Stage} (h : Mid E c s st) {b : Batch} (ha : Aligned b)
    (hok : Acceptable c (s ++ [view b])) : ∃ st' out, st.process E b = some (st', out) ∧ Mid E c (s ++ [view b]) st' ∧
      (∀ b' ∈ out, Aligned b') ∧ denote E c (s ++ [view b]) = denote E c s ++ (out.map view).toList := by
  cases c with
  | counting =>
    cases h
    refine ⟨_, some b, rfl, ?_, by simpa using ha, rfl⟩
    show _ = _
    rw [allRows_snoc, List.length_append, rows_length]
  | sampling r =>
    obtain ⟨h0, h1, rfl⟩ := h
    obtain ⟨b', e1, e2, e3⟩ := removePoints_spec
      ((List.range b.points.length).filter (fun i => !sampled r ((allRows s).length + i))) ha
    refine ⟨.sampling r (samplerAt r ((allRows s).length + b.points.length)), some b', ?_, ⟨h0, h1, ?_⟩, by simpa using e2, ?_⟩
    · simp only [Stage.process, sampleLoop_at h0 h1, e1, Option.bind_eq_bind, Option.bind_some]
    · rw [allRows_snoc, List.length_append, rows_length]
    · simp only [denote, sampleFrom_append, Option.map_some, Option.toList_some, e3, Nat.zero_add]
      congr 2
      simp only [view]
      congr 1
      apply atPositions_congr
      intro i hi
      rw [rows_length] at hi
      simp [hi]
  | minMax lo hi =>
    cases h
    obtain ⟨b', e1, e2, e3⟩ := removeUnless_spec (fun p =>
      decide (lo * lo ≤ P3.squaredNorm (P3.sub p b.origin)) && decide (P3.squaredNorm (P3.sub p b.origin) ≤ hi * hi)) ha
    refine ⟨.minMax (lo * lo) (hi * hi), some b', ?_, rfl, by simpa using e2, ?_⟩
    · simp only [Stage.process, e1, Option.bind_eq_bind, Option.bind_some]
    · simp only [denote, List.map_append, List.map_cons, List.map_nil, Option.map_some, Option.toList_some, e3, Bool.decide_and]
      rfl
  | vertical lo hi =>
    cases h
    obtain ⟨b', e1, e2, e3⟩ := removeUnless_spec (fun p =>
      decide (lo ≤ p.z - b.origin.z) && decide (p.z - b.origin.z ≤ hi)) ha
    refine ⟨.vertical lo hi, some b', ?_, rfl, by simpa using e2, ?_⟩
    · simp only [Stage.process, e1, Option.bind_eq_bind, Option.bind_some]
    · simp only [denote, List.map_append, List.map_cons, List.map_nil, Option.map_some, Option.toList_some, e3, Bool.decide_and]
      rfl
  | frameId keep drop =>
    obtain ⟨hne, rfl⟩ := h
    have hv : (view b).frame = b.frame := rfl
    have hk : ((!keep.isEmpty && decide (b.frame ∈ keep)) || (!drop.isEmpty && !decide (b.frame ∈ drop))) =
        (if drop = [] then decide (b.frame ∈ keep) else decide (b.frame ∉ drop)) := by
      cases keep with
      | nil => cases drop with
        | nil => exact absurd rfl hne
        | cons d ds => simp
      | cons k ks => cases drop with
        | nil => simp
        | cons d ds => exact absurd rfl hne
    by_cases hf : (if drop = [] then decide (b.frame ∈ keep) else decide (b.frame ∉ drop)) = true
    · refine ⟨.frameId keep drop, some b, ?_, ⟨hne, rfl⟩, by simpa using ha, ?_⟩
      · simp only [Stage.process, hk]
        rw [if_pos hf]
      · simp only [denote, List.filter_append, List.filter_cons, hv]
        rw [if_pos hf]
        rfl
    · refine ⟨.frameId keep drop, none, ?_, ⟨hne, rfl⟩, by simp, ?_⟩
      · simp only [Stage.process, hk]
        rw [if_neg hf]
      · simp only [denote, List.filter_append, List.filter_cons, hv]
        rw [if_neg hf]
        rfl
  | coloring c frame =>
    cases h
    by_cases hf : b.frame = frame
    · refine ⟨.coloring c frame, some { b with colors := b.points.map (fun _ => c) }, ?_, rfl, ?_, ?_⟩
      · simp only [Stage.process, if_pos hf]
      · intro b' hb'
        cases hb'
        exact ⟨.inr (by simp), ha.2⟩
      · have hv : (view b).frame = frame := hf
        simp only [denote, List.map_append, List.map_cons, List.map_nil, Option.map_some, Option.toList_some]
        rw [if_pos hv]
        congr 2
        simp only [view]
        congr 1
        apply List.ext_getElem?
        intro i
        rw [List.getElem?_map, rows_getElem?, rows_getElem?]
        simp only [List.getElem?_map]
        cases b.points[i]? <;> rfl
    · refine ⟨.coloring c frame, some b, ?_, rfl, by simpa using ha, ?_⟩
      · simp only [Stage.process, if_neg hf]
      · have hv : ¬ (view b).frame = frame := hf
        simp [denote, hv]
  | intensity lo hi frame =>
    cases h
    by_cases hf : frame = "" ∨ b.frame = frame
    · have hv : frame = "" ∨ (view b).frame = frame := hf
      by_cases hi' : b.intensities = []
      · refine ⟨.intensity lo hi frame, some b, ?_, rfl, by simpa using ha, ?_⟩
        · simp [Stage.process, hi']
        · simp only [denote, List.map_append, List.map_cons, List.map_nil, Option.map_some, Option.toList_some]
          rw [if_pos hv]
          congr 2
          simp only [view]
          congr 1
          apply List.ext_getElem?
          intro i
          rw [List.getElem?_map, rows_getElem?]
          cases b.points[i]? <;> simp [hi']
      · refine ⟨.intensity lo hi frame, some { b with colors := b.intensities.map (gray lo hi) }, ?_, rfl, ?_, ?_⟩
        · have : (!b.intensities.isEmpty && (decide (frame = "") || decide (b.frame = frame))) = true := by
            simp [hi', hf]
          simp only [Stage.process, this, if_true]
        · intro b' hb'
          cases hb'
          exact ⟨by simpa using ha.2, ha.2⟩
        · simp only [denote, List.map_append, List.map_cons, List.map_nil, Option.map_some, Option.toList_some]
          rw [if_pos hv]
          congr 2
          simp only [view]
          congr 1
          have hl := ha.2.resolve_left hi'
          apply List.ext_getElem?
          intro i
          rw [List.getElem?_map, rows_getElem?, rows_getElem?]
          simp only [List.getElem?_map]
          by_cases hlt : i < b.points.length
          · rw [List.getElem?_eq_getElem (l := b.points) hlt, List.getElem?_eq_getElem (l := b.intensities) (by omega)]
            rfl
          · rw [List.getElem?_eq_none (l := b.points) (by omega)]
            rfl
    · refine ⟨.intensity lo hi frame, some b, ?_, rfl, by simpa using ha, ?_⟩
      · simp only [not_or] at hf
        simp [Stage.process, hf.1, hf.2]
      · have hv : ¬ (frame = "" ∨ (view b).frame = frame) := hf
        simp [denote, hv]
  | outlier v l => exact h.elim
  | xyz o =>
    cases h
    refine ⟨.xyz (atEnd o ((allRows s).flatMap (fun r => E.line r.point) ++ (rows b).flatMap (fun r => E.line r.point))), some b,
      ?_, ?_, by simpa using ha, rfl⟩
    · simp only [Stage.process, writeXyz_rows, Option.bind_eq_bind, Option.bind_some]
    · show _ = _
      rw [allRows_snoc, List.flatMap_append]
  | ply o comments =>
    by_cases hp : b.points = []
    · have hr : rows b = [] := (rows_nil_iff b).2 hp
      have e : allRows (s ++ [view b]) = allRows s := by rw [allRows_snoc, hr, List.append_nil]
      rcases h with ⟨hs, rfl⟩ | ⟨hs, rfl⟩
      · refine ⟨_, some b, by simp only [Stage.process, if_pos hp], .inl ⟨by rw [e]; exact hs, rfl⟩, by simpa using ha, rfl⟩
      · refine ⟨_, some b, (by simp only [Stage.process, if_pos hp]; rfl), .inr ⟨by rw [e]; exact hs, ?_⟩, by simpa using ha, rfl⟩
        rw [colored_append hs, intense_append hs, e]
    · have hr : rows b ≠ [] := fun hc => hp ((rows_nil_iff b).1 hc)
      have hne : allRows (s ++ [view b]) ≠ [] := by rw [allRows_snoc]; simp [hr]
      obtain ⟨l1, l2⟩ := ply_lengths ha hp (hc := colored (s ++ [view b])) (hi := intense (s ++ [view b]))
        (fun r hr => hok.1 r (by rw [allRows_snoc]; exact List.mem_append_right _ hr))
        (fun r hr => hok.2 r (by rw [allRows_snoc]; exact List.mem_append_right _ hr))
      have c1 : ¬ ((colored (s ++ [view b])) = true ∧ b.points.length ≠ b.colors.length) := fun hc => hc.2 (l1 hc.1).symm
      have c2 : ¬ ((intense (s ++ [view b])) = true ∧ b.points.length ≠ b.intensities.length) := fun hc => hc.2 (l2 hc.1).symm
      rcases h with ⟨hs, rfl⟩ | ⟨hs, rfl⟩
      · refine ⟨_, some b, ?_, .inr ⟨hne, rfl⟩, by simpa using ha, rfl⟩
        simp only [Stage.process, if_neg hp, if_true, header_new, Option.bind_eq_bind, Option.bind_some,
          ← colored_first hs hp, ← intense_first hs hp]
        rw [if_neg c1, if_neg c2, writePly_rows E l1 l2]
        simp only [Option.bind_some]
        rw [allRows_snoc, hs, List.nil_append, rows_length, Nat.zero_add]
      · refine ⟨_, some b, ?_, .inr ⟨hne, rfl⟩, by simpa using ha, rfl⟩
        have h0 : ¬ (allRows s).length = 0 := by simpa using hs
        rw [colored_append hs] at c1 l1
        rw [intense_append hs] at c2 l2
        simp only [Stage.process, if_neg hp, if_neg h0, Option.bind_eq_bind, Option.bind_some]
        rw [if_neg c1, if_neg c2, writePly_rows E l1 l2]
        simp only [Option.bind_some]
        rw [colored_append hs, intense_append hs, allRows_snoc, List.length_append, rows_length, List.flatMap_append,
          List.append_assoc]
  | pcd o =>
    by_cases hp : b.points = []
    · have hr : rows b = [] := (rows_nil_iff b).2 hp
      have e : allRows (s ++ [view b]) = allRows s := by rw [allRows_snoc, hr, List.append_nil]
      rcases h with ⟨hs, rfl⟩ | ⟨hs, rfl⟩
      · refine ⟨_, some b, by simp only [Stage.process, if_pos hp], .inl ⟨by rw [e]; exact hs, rfl⟩, by simpa using ha, rfl⟩
      · refine ⟨_, some b, (by simp only [Stage.process, if_pos hp]; rfl), .inr ⟨by rw [e]; exact hs, ?_⟩, by simpa using ha, rfl⟩
        rw [colored_append hs, e]
    · have hr : rows b ≠ [] := fun hc => hp ((rows_nil_iff b).1 hc)
      have hne : allRows (s ++ [view b]) ≠ [] := by rw [allRows_snoc]; simp [hr]
      rcases h with ⟨hs, rfl⟩ | ⟨hs, rfl⟩
      · refine ⟨_, some b, ?_, .inr ⟨hne, rfl⟩, by simpa using ha, rfl⟩
        simp only [Stage.process, if_neg hp, if_true, header_new, Option.bind_eq_bind, Option.bind_some,
          ← colored_first hs hp]
        rw [writePcd_rows E ha]
        simp only [Option.bind_some]
        rw [allRows_snoc, hs, List.nil_append, rows_length, Nat.zero_add]
      · refine ⟨_, some b, ?_, .inr ⟨hne, rfl⟩, by simpa using ha, rfl⟩
        have h0 : ¬ (allRows s).length = 0 := by simpa using hs
        simp only [Stage.process, if_neg hp, if_neg h0, Option.bind_eq_bind, Option.bind_some]
        rw [writePcd_rows E ha]
        simp only [Option.bind_some]
        rw [colored_append hs, allRows_snoc, List.length_append, rows_length, List.flatMap_append, List.append_assoc]
  | grid =>
    obtain ⟨seen, rfl, hs⟩ := h
    exact ⟨_, some b, rfl, ⟨seen ++ [b], rfl, by rw [List.map_append, hs]; rfl⟩, by simpa using ha, rfl⟩

end Verif.Points
