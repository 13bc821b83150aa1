import Verif.Props.OptimizationProblem

/-!
# C61: trimming a node from the optimization problem does not change the residuals of the others
-/

namespace Verif.OptProblem

open MapById

set_option linter.unusedSectionVars false

variable {T O G : Type} [LinearOrder T] [BoundedOrder T] [Group O] [Group G] (S : Setup T O G)

/-! ### Odometry along a chain of nodes -/

theorem PoseAt.unique {tr : List (T × Reading T G)} (hs : SMap.Sorted tr) {τ : T} {g g' : G}
    (h : PoseAt S tr τ g) (h' : PoseAt S tr τ g') : g = g' := by
  obtain ⟨b, e, hb, he, h1, h2⟩ := h
  obtain ⟨b', e', hb', he', h1', h2'⟩ := h'
  have eq1 : b = b' := by
    have hk : b.1 = b'.1 := le_antisymm (hb'.2.2 _ hb.1 hb.2.1) (hb.2.2 _ hb'.1 hb'.2.1)
    have q := SMap.get?_of_mem hs (k := b.1) (v := b.2) hb.1
    have q' := SMap.get?_of_mem hs (k := b'.1) (v := b'.2) hb'.1
    rw [hk, q'] at q
    exact Prod.ext hk (Option.some.inj q).symm
  have eq2 : e = e' := by
    have hk : e.1 = e'.1 := le_antisymm (he.2.2 _ he'.1 he'.2.1) (he'.2.2 _ he.1 he.2.1)
    have q := SMap.get?_of_mem hs (k := e.1) (v := e.2) he.1
    have q' := SMap.get?_of_mem hs (k := e'.1) (v := e'.2) he'.1
    rw [hk, q'] at q
    exact Prod.ext hk (Option.some.inj q).symm
  subst eq1 eq2
  by_cases ht : e.1 = τ
  · rw [h1 ht, h1' ht]
  · rw [h2 ht, h2' ht]

theorem dataOf_sorted {D : Type} {time : D → T} {m : MapByTime.Map T D} (w : MapByTime.WF time m) (t : Int) :
    SMap.Sorted (MapByTime.dataOf m t) := by
  unfold MapByTime.dataOf
  cases hg : SMap.get? t m with
  | none => exact SMap.sorted_nil
  | some tr => exact w.dsorted _ (SMap.mem_of_get? hg)

/-- **C60, odometry residuals add up**: along consecutive nodes the relative poses of the odometry residuals multiply to
the relative odometry between the first and the last node; no motion is counted twice or left out. -/
theorem odometry_chain (hend : LerpEnd S) {p : Problem T O G} {cs : List (Constraint G)} {ls : List (Landmark T G)}
    (h : Ready p cs ls) {frozen : List Int} {b : Built T O G} (hb : build S p cs frozen ls = some (some b))
    {t i : Int} {k : Nat} {g : Nat → G} (hk : 0 < k)
    (hg : ∀ j < k, Block.odometry (t, i + j) (t, i + j + 1) (g j) ∈ b.blocks) :
    ∃ m n u v, at? p.nodes (t, i) = some m ∧ at? p.nodes (t, i + k) = some n ∧
      PoseAt S (MapByTime.dataOf p.odometry t) m.time u ∧ PoseAt S (MapByTime.dataOf p.odometry t) n.time v ∧
      ((List.range k).map g).prod = m.gravity * u⁻¹ * v * n.gravity⁻¹ := by
  obtain ⟨b', hb', -, -, -, -, -, hod, -⟩ := residual_blocks S hend h frozen
  obtain rfl : b = b' := Option.some.inj (Option.some.inj (hb.symm.trans hb'))
  induction k with
  | zero => omega
  | succ k ih =>
    obtain ⟨-, -, m1, n1, u1, v1, hm1, hn1, pu1, pv1, hg1⟩ := (hod _ _ _).1 (hg k (by omega))
    rcases Nat.eq_zero_or_pos k with rfl | hk'
    · refine ⟨m1, n1, u1, v1, ?_, ?_, pu1, pv1, ?_⟩
      · simpa using hm1
      · simpa using hn1
      · simpa using hg1
    · obtain ⟨m, n, u, v, hm, hn, pu, pv, hp⟩ := ih hk' (fun j hj => hg j (by omega))
      obtain rfl : n = m1 := Option.some.inj (hn.symm.trans hm1)
      obtain rfl : v = u1 := PoseAt.unique S (dataOf_sorted h.odometry t) pv pu1
      refine ⟨m, n1, u, v1, hm, ?_, pu, pv1, ?_⟩
      · rw [← hn1]; congr 2; push_cast; ring
      · rw [List.range_succ, List.map_append, List.prod_append, hp, List.map_singleton, List.prod_singleton, hg1]
        group

/-! ### Trimming -/

theorem PoseAt.congr {tr tr' : List (T × Reading T G)} {τ : T}
    (h : ∀ e, (MapByTime.IsLatest tr' τ e ↔ MapByTime.IsLatest tr τ e) ∧ (MapByTime.IsEarliest tr' τ e ↔ MapByTime.IsEarliest tr τ e))
    (g : G) : PoseAt S tr' τ g ↔ PoseAt S tr τ g := by
  unfold PoseAt
  simp only [(h _).1, (h _).2]

/-- If all readings have poses, the fixed frame pose is determined by the nearest readings. -/
theorem frameAt_of_poses (hend : LerpEnd S) {tr : List (T × Reading T (Option G))} (hs : SMap.Sorted tr)
    (hp : ∀ x ∈ tr, x.2.pose.isSome) (τ : T) (g : G) :
    FrameAt S tr τ g ↔ ∃ b e gb ge, MapByTime.IsLatest tr τ b ∧ MapByTime.IsEarliest tr τ e ∧ b.2.pose = some gb ∧
      e.2.pose = some ge ∧ (e.1 = τ → g = ge) ∧ (e.1 ≠ τ → g = S.lerp b.1 gb e.1 ge τ) := by
  constructor
  · rintro ⟨e, ge, he, hge, h⟩
    by_cases ht : e.1 = τ
    · refine ⟨e, e, ge, ge, ⟨he.1, le_of_eq ht, fun x _ hx => by rw [ht]; exact hx⟩, he, hge, hge, fun _ => ?_, fun hc => absurd ht hc⟩
      rcases h with ⟨-, hg, -⟩ | ⟨b, gb, -, -, -, -, hg⟩
      · exact hg
      · rw [hg, ht, hend]
    · rcases h with ⟨hc, -⟩ | ⟨b, gb, hb, hlt, hmax, hgb, hg⟩
      · exact absurd hc ht
      · refine ⟨b, e, gb, ge, ⟨hb, le_of_lt hlt, fun x hx hxt => ?_⟩, he, hgb, hge, fun hc => absurd hc ht, fun _ => hg⟩
        rcases lt_or_eq_of_le hxt with hl | heq
        · exact hmax x hx hl
        · exact absurd (le_antisymm (heq ▸ he.2.2 x hx (le_of_eq heq.symm)) he.2.1) ht
  · rintro ⟨b, e, gb, ge, hb, he, hgb, hge, h1, h2⟩
    refine ⟨e, ge, he, hge, ?_⟩
    by_cases ht : e.1 = τ
    · by_cases hx : ∃ x ∈ tr, x.1 < τ
      · obtain ⟨c, hc, hcl, hcm⟩ : ∃ c ∈ tr, c.1 < τ ∧ ∀ x ∈ tr, x.1 < τ → x.1 ≤ c.1 := by
          obtain ⟨x, hx, hxl⟩ := hx
          exact MapByTime.exists_last hs (fun x => x.1 < τ) hx hxl
        obtain ⟨gc, hgc⟩ := Option.isSome_iff_exists.1 (hp c hc)
        refine Or.inr ⟨c, gc, hc, hcl, hcm, hgc, ?_⟩
        rw [h1 ht, ht, hend]
      · refine Or.inl ⟨ht, h1 ht, fun x hxm hxl => hx ⟨x, hxm, hxl⟩⟩
    · have hbl : b.1 < τ := by
        rcases lt_or_eq_of_le hb.2.1 with hl | heq
        · exact hl
        · exact absurd (le_antisymm (heq ▸ he.2.2 b hb.1 (le_of_eq heq.symm)) he.2.1) ht
      exact Or.inr ⟨b, gb, hb.1, hbl, fun x hx hxl => hb.2.2 x hx (le_of_lt hxl), hgb, h2 ht⟩

/-- **C61**: in every reachable state with increasing node times, trimming a node does not abort, removes exactly this node,
and a later optimization has exactly the local SLAM and odometry residuals of before that do not involve the node, with the
same relative poses, although odometry readings were removed; this holds for the fixed frame residuals of trajectories, too,
if all their readings have poses. -/
theorem trim_keeps_residuals_partial (hend : LerpEnd S) {calls : List (Call T O G)} {p : Problem T O G} (h : Exec S {} calls p)
    (hb : MapByTime.SmallNodes p.nodes) {id : Id} {n : Node T O G} (hn : at? p.nodes id = some n)
    (ho : MapByTime.Ordered (fun n : Node T O G => n.time) p.nodes id.1) :
    ∃ p', exec S p (.trimNode id) = some p' ∧
      (∀ id', at? p'.nodes id' = if id' = id then none else at? p.nodes id') ∧ p'.submaps = p.submaps ∧
      ∀ cs ls cs' ls' frozen b b', Ready p cs ls → Ready p' cs' ls' → build S p cs frozen ls = some (some b) →
        build S p' cs' frozen ls' = some (some b') →
        (∀ x y g, Block.localSlam x y g ∈ b'.blocks ↔ x ≠ id ∧ y ≠ id ∧ Block.localSlam x y g ∈ b.blocks) ∧
        (∀ x y g, Block.odometry x y g ∈ b'.blocks ↔ x ≠ id ∧ y ≠ id ∧ Block.odometry x y g ∈ b.blocks) ∧
        (∀ t, (∀ r ∈ MapByTime.dataOf p.fixedFrame t, r.2.pose.isSome) →
          ∀ x g, Block.fixedFrame t x g ∈ b'.blocks ↔ x ≠ id ∧ Block.fixedFrame t x g ∈ b.blocks) := by
  have hi := inv_exec S h
  obtain ⟨t0, i0⟩ := id
  obtain ⟨od, ho1, ho2, ho3, -, ho5, -⟩ := MapByTime.trim_keeps_neighbours_wf hi.odometry hi.nodes hb hn ho
  obtain ⟨ff, hf1, hf2, hf3, -, hf5, -⟩ := MapByTime.trim_keeps_neighbours_wf hi.fixedFrame hi.nodes hb hn ho
  obtain ⟨ns, hns⟩ : ∃ ns, trim p.nodes (t0, i0) = some ns := by
    unfold at? at hn
    unfold trim
    cases h1 : SMap.get? t0 p.nodes with
    | none => rw [h1] at hn; cases hn
    | some tr =>
      rw [h1] at hn
      simp only [Option.bind_some] at hn
      simp only [hn]
      split <;> exact ⟨_, rfl⟩
  obtain ⟨-, -, hat⟩ := trim_spec hi.nodes hns
  simp only [eq_comm (a := ((t0, i0) : Id))] at hat
  refine ⟨{ nodes := ns, submaps := p.submaps, odometry := od, fixedFrame := ff,
            trajectoryData := if sizeOfTrajectoryOrZero ns t0 = 0 then SMap.erase t0 p.trajectoryData else p.trajectoryData },
    by simp only [exec, trimNode, ho1, hf1, hns, Option.bind_eq_bind, Option.bind_some], hat, rfl, ?_⟩
  intro cs ls cs' ls' frozen b b' hr hr' hbb hbb'
  obtain ⟨c, hc, -, -, -, -, hl, hod, hfr⟩ := residual_blocks S hend hr frozen
  obtain rfl : b = c := Option.some.inj (Option.some.inj (hbb.symm.trans hc))
  obtain ⟨c, hc', -, -, -, -, hl', hod', hfr'⟩ := residual_blocks S hend hr' frozen
  obtain rfl : b' = c := Option.some.inj (Option.some.inj (hbb'.symm.trans hc'))
  dsimp only at hl' hod' hfr'
  refine ⟨?_, ?_, ?_⟩
  · intro x y g
    rw [hl, hl']
    simp only [hat]
    by_cases hx : x = (t0, i0)
    · simp [hx]
    · by_cases hy : y = (t0, i0)
      · simp [hy]
      · simp [hx, hy]
  · have hpose : ∀ x m u, x ≠ (t0, i0) → at? p.nodes x = some m →
        (PoseAt S (MapByTime.dataOf od x.1) m.time u ↔ PoseAt S (MapByTime.dataOf p.odometry x.1) m.time u) := by
      intro x m u hx hm
      obtain ⟨t, i⟩ := x
      by_cases ht : t = t0
      · subst ht
        exact PoseAt.congr S (ho2 i m (fun e => hx (by rw [e])) hm) u
      · dsimp only
        rw [ho5 t ht]
    intro x y g
    rw [hod, hod']
    simp only [hat]
    by_cases hx : x = (t0, i0)
    · simp [hx]
    · by_cases hy : y = (t0, i0)
      · simp [hy]
      · simp only [hx, hy, if_false, ne_eq, not_false_eq_true, true_and]
        refine and_congr_right fun _ => and_congr_right fun hyx => ?_
        have hy1 : y.1 = x.1 := by rw [hyx]
        constructor
        · rintro ⟨m, n, u, v, h1, h2, h3, h4, h5⟩
          refine ⟨m, n, u, v, h1, h2, (hpose x m u hx h1).1 h3, ?_, h5⟩
          rw [← hy1] at h4 ⊢
          exact (hpose y n v hy h2).1 h4
        · rintro ⟨m, n, u, v, h1, h2, h3, h4, h5⟩
          refine ⟨m, n, u, v, h1, h2, (hpose x m u hx h1).2 h3, ?_, h5⟩
          rw [← hy1] at h4 ⊢
          exact (hpose y n v hy h2).2 h4
  · intro t hp x g
    rw [hfr, hfr']
    simp only [hat]
    by_cases hx : x = (t0, i0)
    · simp [hx]
    · simp only [hx, if_false, ne_eq, not_false_eq_true, true_and]
      refine and_congr_right fun hxt => exists_congr fun m => and_congr_right fun hm => ?_
      by_cases ht : t = t0
      · subst ht
        obtain ⟨t', i⟩ := x
        simp only at hxt
        subst hxt
        rw [frameAt_of_poses S hend (dataOf_sorted hi.fixedFrame _) hp,
          frameAt_of_poses S hend (dataOf_sorted hr'.fixedFrame _) (fun r hr => hp r (hf3.subset hr))]
        have := hf2 i m (fun e => hx (by rw [e])) hm
        simp only [(this _).1, (this _).2]
      · rw [hf5 t ht]

/-! ### Examples and counterexamples -/

section Examples

/-- Times 0 to 99, poses on a line, linear interpolation. -/
def line : Setup (Fin 100) (Multiplicative ℤ) (Multiplicative ℤ) where
  emb := id
  proj := id
  lerp t0 g0 t1 g1 τ := if τ = t1 then g1 else
    .ofAdd (g0.toAdd + (g1.toAdd - g0.toAdd) * ((τ.val : ℤ) - t0.val) / ((t1.val : ℤ) - t0.val))

theorem line_end : LerpEnd line := by intro t0 g0 t1 g1; simp [line]

abbrev LCall := Call (Fin 100) (Multiplicative ℤ) (Multiplicative ℤ)
abbrev LProblem := Problem (Fin 100) (Multiplicative ℤ) (Multiplicative ℤ)

/-- Runs calls. -/
def run : LProblem → List LCall → Option LProblem
  | p, [] => some p
  | p, c :: cs => (exec line p c).bind (fun p' => run p' cs)

theorem exec_cons {p p' p'' : LProblem} {c : LCall} {cs : List LCall} (h : exec line p c = some p') (h' : Exec line p' cs p'') :
    Exec line p (c :: cs) p'' := by
  induction h' with
  | nil => exact .snoc (.nil _) h
  | snoc _ hs ih => exact .snoc (cs := c :: _) ih hs

theorem exec_of_run : ∀ {cs : List LCall} {p p' : LProblem}, run p cs = some p' → Exec line p cs p'
  | [], p, p', h => by
    simp only [run, Option.some.injEq] at h
    subst h
    exact .nil _
  | c :: cs, p, p', h => by
    simp only [run, Option.bind_eq_some_iff] at h
    obtain ⟨q, h1, h2⟩ := h
    exact exec_cons h1 (exec_of_run h2)

def lnode (τ : Fin 100) (x : ℤ) : Node (Fin 100) (Multiplicative ℤ) (Multiplicative ℤ) := ⟨τ, .ofAdd x, .ofAdd x, 1⟩

/-- Two trajectories with nodes, submaps, odometry and fixed frame data. -/
def history : List LCall :=
  [.addNode 0 (lnode 10 0), .addSubmap 0 1, .addOdometry 0 ⟨5, .ofAdd 0⟩, .addOdometry 0 ⟨15, .ofAdd 10⟩, .addNode 0 (lnode 20 11),
    .addOdometry 0 ⟨17, .ofAdd 12⟩, .addOdometry 0 ⟨19, .ofAdd 13⟩, .addOdometry 0 ⟨25, .ofAdd 19⟩,
    .addOdometry 0 ⟨35, .ofAdd 29⟩, .addNode 0 (lnode 30 20), .addNode 0 (lnode 34 28), .addSubmap 0 (.ofAdd 15), .addNode 3 (lnode 50 1),
    .addNode 3 (lnode 52 5), .addSubmap 3 1, .addFixedFrame 0 ⟨28, some (.ofAdd 100)⟩, .addFixedFrame 0 ⟨32, some (.ofAdd 104)⟩]

/-- The residuals after these calls: four between consecutive nodes with local poses, three with odometry, one fixed frame
residual, an observation of a landmark between the nodes 2 and 3, and a constraint. -/
example : ((run {} history).bind (fun p => build line p [⟨(0, 0), (3, 1), .ofAdd 7, true⟩] [3]
      [⟨"a", [⟨0, 31, .ofAdd 2⟩, ⟨0, 40, .ofAdd 2⟩], true⟩])) =
    some (some {
      constSubmaps := [(0, 0), (3, 0)]
      constNodes := [(3, 0), (3, 1)]
      constLandmarks := ["a"]
      blocks := [.constraint (0, 0) (3, 1) (.ofAdd 7) true, .landmark "a" ⟨0, 31, .ofAdd 2⟩ (0, 2) (0, 3),
        .odometry (0, 0) (0, 1) (.ofAdd 9), .localSlam (0, 0) (0, 1) (.ofAdd 11),
        .odometry (0, 1) (0, 2) (.ofAdd 10), .localSlam (0, 1) (0, 2) (.ofAdd 9),
        .odometry (0, 2) (0, 3) (.ofAdd 4), .localSlam (0, 2) (0, 3) (.ofAdd 8),
        .fixedFrame 0 (0, 2) (.ofAdd 102)]
      origins := [(0, .ofAdd (-82))] }) := by
  decide +kernel

/-- Trimming node 1 removes odometry readings, but the residual between the nodes 2 and 3 is the same. -/
example : ((run {} (history ++ [.trimNode (0, 1)])).bind (fun p => (build line p [] [3] []).map (fun b =>
      (b.map (·.blocks), (MapByTime.dataOf p.odometry 0).map (·.1))))) =
    some (some [.odometry (0, 2) (0, 3) (.ofAdd 4), .localSlam (0, 2) (0, 3) (.ofAdd 8), .fixedFrame 0 (0, 2) (.ofAdd 102)],
      [5, 15, 25, 35]) := by
  decide +kernel

/-- The hypotheses about nodes, checked on the list of nodes. -/
def nodesOk (p : LProblem) (t : Int) : Bool :=
  (flat p.nodes).all (fun x => decide (x.1.1 < intMax) && (x.1.1 != t || (decide (0 < x.2.time) && decide (x.2.time < 99)))) &&
    (flat p.nodes).all (fun x => (flat p.nodes).all (fun y => x.1.1 != t || y.1.1 != t || decide (y.1.2 ≤ x.1.2) || decide (x.2.time < y.2.time)))

theorem nodesOk_spec {p : LProblem} (h : Inv p) {t : Int} (hk : nodesOk p t = true) :
    MapByTime.SmallNodes p.nodes ∧ MapByTime.Ordered (fun n : Node _ _ _ => n.time) p.nodes t := by
  simp only [nodesOk, Bool.and_eq_true, List.all_eq_true, decide_eq_true_eq, Bool.or_eq_true, bne_iff_ne] at hk
  obtain ⟨h1, h2⟩ := hk
  refine ⟨fun id n hn => (h1 (id, n) ((at?_iff_mem h.nodes).1 hn)).1, fun j n hn => ?_, fun j k a b ha hb hjk => ?_⟩
  · rcases (h1 ((t, j), n) ((at?_iff_mem h.nodes).1 hn)).2 with hc | hc
    · exact absurd rfl hc
    · exact hc
  · rcases h2 _ ((at?_iff_mem h.nodes).1 ha) _ ((at?_iff_mem h.nodes).1 hb) with ((hc | hc) | hc) | hc
    · exact absurd rfl hc
    · exact absurd rfl hc
    · exact absurd hjk (not_lt.2 hc)
    · exact hc

/-- The hypotheses of `trim_keeps_residuals_partial` hold after `history`, and without landmarks and constraints `Ready` holds
before and after trimming. -/
example : ∃ p p' : LProblem, Exec line {} history p ∧ MapByTime.SmallNodes p.nodes ∧ (∃ n, at? p.nodes (0, 1) = some n) ∧
    MapByTime.Ordered (fun n : Node _ _ _ => n.time) p.nodes 0 ∧ exec line p (.trimNode (0, 1)) = some p' ∧
    Ready p [] [] ∧ Ready p' [] [] ∧ (∀ r ∈ MapByTime.dataOf p.fixedFrame 0, r.2.pose.isSome) := by
  have hrun : (run {} history).any (fun p => nodesOk p 0 && (at? p.nodes (0, 1)).isSome &&
      ((exec line p (.trimNode (0, 1))).any (fun p' => nodesOk p' 0 && (at? p'.nodes (0, 2)).isSome)) &&
      (MapByTime.dataOf p.fixedFrame 0).all (fun r => r.2.pose.isSome)) = true := by decide +kernel
  obtain ⟨p, hp, hq⟩ := (Option.any_eq_true _ _).1 hrun
  simp only [Bool.and_eq_true] at hq
  obtain ⟨⟨⟨h1, h2⟩, h3⟩, h4⟩ := hq
  obtain ⟨p', hp', h5⟩ := (Option.any_eq_true _ _).1 h3
  simp only [Bool.and_eq_true] at h5
  have he := exec_of_run hp
  have hi := inv_exec line he
  have hi' := inv_exec line (.snoc he hp')
  obtain ⟨n, hn⟩ := Option.isSome_iff_exists.1 h2
  obtain ⟨n', hn'⟩ := Option.isSome_iff_exists.1 h5.2
  obtain ⟨k1, k2⟩ := nodesOk_spec hi h1
  obtain ⟨k3, -⟩ := nodesOk_spec hi' h5.1
  refine ⟨p, p', he, k1, ⟨n, hn⟩, k2, hp', ?_, ?_, ?_⟩
  · exact ⟨hi.nodes, hi.submaps, k1, hi.odometry, hi.fixedFrame, hi.data, by simp, by simp, ⟨_, n, hn⟩⟩
  · exact ⟨hi'.nodes, hi'.submaps, k3, hi'.odometry, hi'.fixedFrame, hi'.data, by simp, by simp, ⟨_, n', hn'⟩⟩
  · simpa using h4

/-- **C61 is false for fixed frames with readings without pose**: after trimming a node, the fixed frame residual of another
node that has a reading at exactly its time disappears, because the reading before it is now one without pose. -/
theorem trim_loses_fixed_frame : ∃ calls : List LCall, ∃ p p' : LProblem, Exec line {} calls p ∧
    MapByTime.SmallNodes p.nodes ∧ MapByTime.Ordered (fun n : Node _ _ _ => n.time) p.nodes 0 ∧
    exec line p (.trimNode (0, 1)) = some p' ∧
    (∃ b, build line p [] [] [] = some (some b) ∧ Block.fixedFrame 0 (0, 2) (.ofAdd 6) ∈ b.blocks) ∧
    (∃ b, build line p' [] [] [] = some (some b) ∧ ∀ t x g, Block.fixedFrame t x g ∉ b.blocks) := by
  let calls : List LCall := [.addNode 0 (lnode 10 0), .addNode 0 (lnode 20 1), .addNode 0 (lnode 30 2), .addFixedFrame 0 ⟨12, none⟩,
    .addFixedFrame 0 ⟨25, some (.ofAdd 5)⟩, .addFixedFrame 0 ⟨30, some (.ofAdd 6)⟩]
  have hrun : (run {} calls).any (fun p => nodesOk p 0 &&
      ((build line p [] [] []).any (fun b => b.any (fun b => decide (Block.fixedFrame 0 (0, 2) (.ofAdd 6) ∈ b.blocks)))) &&
      ((exec line p (.trimNode (0, 1))).any (fun p' => (build line p' [] [] []).any (fun b => b.any (fun b => b.blocks.isEmpty))))) = true := by
    decide +kernel
  obtain ⟨p, hp, hq⟩ := (Option.any_eq_true _ _).1 hrun
  simp only [Bool.and_eq_true] at hq
  obtain ⟨⟨h1, h2⟩, h3⟩ := hq
  obtain ⟨p', hp', h5⟩ := (Option.any_eq_true _ _).1 h3
  obtain ⟨_ , hb, h2⟩ := (Option.any_eq_true _ _).1 h2
  obtain ⟨b , rfl, h2⟩ := (Option.any_eq_true _ _).1 h2
  obtain ⟨_ , hb', h5⟩ := (Option.any_eq_true _ _).1 h5
  obtain ⟨b' , rfl, h5⟩ := (Option.any_eq_true _ _).1 h5
  have he := exec_of_run hp
  obtain ⟨k1, k2⟩ := nodesOk_spec (inv_exec line he) h1
  refine ⟨calls, p, p', he, k1, k2, hp', ⟨b, hb, by simpa using h2⟩, ⟨b', hb', fun t x g hm => ?_⟩⟩
  have h5 : b'.blocks = [] := List.isEmpty_iff.1 h5
  rw [h5] at hm
  cases hm

/-- **C60, `Solve` can abort**: trajectory 1 has not got a node yet when a landmark is observed; optimizing aborts. -/
theorem landmark_before_first_node_aborts : ∃ p : LProblem, Exec line {} [.addNode 0 (lnode 10 0), .addNode 0 (lnode 20 1)] p ∧
    ∀ sol, exec line p (.solve [] [] [⟨"a", [⟨1, 15, .ofAdd 2⟩], false⟩] sol) = none := by
  have hrun : (run {} [.addNode 0 (lnode 10 0), .addNode 0 (lnode 20 1)]).any (fun p =>
      (build line p [] [] [⟨"a", [⟨1, 15, .ofAdd 2⟩], false⟩]).isNone) = true := by
    decide +kernel
  obtain ⟨p, hp, hq⟩ := (Option.any_eq_true _ _).1 hrun
  refine ⟨p, exec_of_run hp, fun sol => ?_⟩
  rw [Option.isNone_iff_eq_none] at hq
  simp only [exec, solve, hq, Option.bind_eq_bind, Option.bind_none]

/-- **C60, a landmark residual may connect two trajectories**: an observation of trajectory 0 made at the time of its only
node is attached to this node and to the first node of trajectory 1. -/
theorem landmark_connects_trajectories : ∃ p : LProblem, Exec line {} [.addNode 0 (lnode 10 0), .addNode 1 (lnode 50 1)] p ∧
    ∃ b, build line p [] [] [⟨"a", [⟨0, 10, .ofAdd 2⟩], false⟩] = some (some b) ∧
      b.blocks = [.landmark "a" ⟨0, 10, .ofAdd 2⟩ (0, 0) (1, 0)] := by
  have hrun : (run {} [.addNode 0 (lnode 10 0), .addNode 1 (lnode 50 1)]).any (fun p =>
      (build line p [] [] [⟨"a", [⟨0, 10, .ofAdd 2⟩], false⟩]).any (fun b => b.any (fun b =>
        decide (b.blocks = [.landmark "a" ⟨0, 10, .ofAdd 2⟩ (0, 0) (1, 0)])))) = true := by
    decide +kernel
  obtain ⟨p, hp, hq⟩ := (Option.any_eq_true _ _).1 hrun
  obtain ⟨_ , hb, hq⟩ := (Option.any_eq_true _ _).1 hq
  obtain ⟨b , rfl, hq⟩ := (Option.any_eq_true _ _).1 hq
  exact ⟨p, exec_of_run hp, b, hb, by simpa using hq⟩

end Examples

end Verif.OptProblem
