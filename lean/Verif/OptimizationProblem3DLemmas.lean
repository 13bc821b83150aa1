import Verif.OptimizationProblem3D
import Verif.Props.ImuIntegration
import Verif.Props.OptimizationProblem

/-!
# Integration of inertial measurements between nodes: uniqueness, and the loop over the nodes of a trajectory
-/

namespace Verif.Imu

open Rigid

/-- A segment ends at the end of the whole time or at the time of a measurement. -/
def Cut (data : List Data) (stop : Int) (s : Segment) : Prop := s.stop = stop ∨ ∃ e ∈ data, e.time = s.stop

/-- `r` is what is measured from `a` to `b`: the latest measurement counts at each time, and changes only at measurements. -/
def Measured (ticks : ℝ) (data : List Data) (a b : Int) (r : Result) : Prop :=
  ∃ ss, Chain a b ss ∧ (∀ s ∈ ss, Latest data s ∧ Cut data b s) ∧ r = resultOf id id ticks .zero ss

theorem chain_bounds : ∀ {ss : List Segment} {a b : Int}, Chain a b ss → a ≤ b ∧ ∀ s ∈ ss, a ≤ s.start ∧ s.start < s.stop ∧ s.stop ≤ b := by
  intro ss
  induction ss with
  | nil => intro a b h; exact ⟨le_of_eq h, by simp⟩
  | cons s ss ih =>
    rintro a b ⟨h1, h2, h3⟩
    obtain ⟨k1, k2⟩ := ih h3
    refine ⟨by omega, ?_⟩
    intro x hx
    rcases List.mem_cons.1 hx with rfl | hx
    · exact ⟨by omega, by omega, k1⟩
    · have := k2 x hx
      exact ⟨by omega, this.2.1, this.2.2⟩

theorem sorted_inj {data : List Data} (h : Sorted data) {d e : Data} (hd : d ∈ data) (he : e ∈ data) (ht : d.time = e.time) : d = e := by
  obtain ⟨i, hi⟩ := List.getElem?_of_mem hd
  obtain ⟨j, hj⟩ := List.getElem?_of_mem he
  rcases Nat.lt_trichotomy i j with hij | hij | hij
  · have := get_lt h hi hj hij; omega
  · subst hij; rw [hi] at hj; exact Option.some.inj hj
  · have := get_lt h hj hi hij; omega

theorem chain_unique {data : List Data} (h : Sorted data) : ∀ {ss ss' : List Segment} {a b : Int}, Chain a b ss → Chain a b ss' →
    (∀ s ∈ ss, Latest data s ∧ Cut data b s) → (∀ s ∈ ss', Latest data s ∧ Cut data b s) → ss = ss' := by
  have stop_le : ∀ {s s' : Segment} {b : Int}, s'.stop ≤ b → Cut data b s → Latest data s' → s.start = s'.start → s.start < s.stop → s'.stop ≤ s.stop := by
    intro s s' b hb hc hl e hlt
    rcases hc with hc | ⟨e', he', hc⟩
    · omega
    · have := hl.2.2 e' he' (by have := hl.2.1; omega)
      omega
  intro ss
  induction ss with
  | nil =>
    intro ss' a b h1 h2 _ _
    cases ss' with
    | nil => rfl
    | cons s' ss' =>
      have := (chain_bounds h2).2 s' (by simp)
      have h3 : a = b := h1
      omega
  | cons s ss ih =>
    intro ss' a b h1 h2 g1 g2
    have b1 := (chain_bounds h1).2 s (by simp)
    cases ss' with
    | nil => have h3 : a = b := h2; omega
    | cons s' ss' =>
      have b2 := (chain_bounds h2).2 s' (by simp)
      obtain ⟨e1, l1, c1⟩ := h1
      obtain ⟨e2, l2, c2⟩ := h2
      obtain ⟨L1, C1⟩ := g1 s (by simp)
      obtain ⟨L2, C2⟩ := g2 s' (by simp)
      have hd : s.d = s'.d := by
        refine sorted_inj h L1.1 L2.1 ?_
        have := L1.2.1
        have := L2.2.1
        rcases Int.lt_trichotomy s.d.time s'.d.time with hlt | heq | hlt
        · have := L1.2.2 _ L2.1 hlt; omega
        · exact heq
        · have := L2.2.2 _ L1.1 hlt; omega
      have hs : s.stop = s'.stop :=
        le_antisymm (stop_le (by omega) C2 L1 (by omega) (by omega)) (stop_le (by omega) C1 L2 (by omega) (by omega))
      have he : s = s' := by
        cases s; cases s'; simp only at hd hs e1 e2 ⊢; rw [hd, hs, e1, e2]
      subst he
      rw [ih c1 c2 (fun x hx => g1 x (List.mem_cons_of_mem _ hx)) (fun x hx => g2 x (List.mem_cons_of_mem _ hx))]

theorem Measured.unique {ticks : ℝ} {data : List Data} (h : Sorted data) {a b : Int} {r r' : Result} (h1 : Measured ticks data a b r)
    (h2 : Measured ticks data a b r') : r = r' := by
  obtain ⟨ss, c1, g1, rfl⟩ := h1
  obtain ⟨ss', c2, g2, rfl⟩ := h2
  rw [chain_unique h c1 c2 g1 g2]

theorem loop_cut (ca cg : V3 → V3) (ticks : ℝ) {data : List Data} (h : Sorted data) (stop : Int) : ∀ (fuel : Nat) (cur : Int) (it : Nat),
    Ready data cur it → cur ≤ stop → data.length - it + 1 ≤ fuel →
    ∃ ss it', (∀ r, loop ca cg ticks data stop fuel cur it r = some (resultOf ca cg ticks r ss, it')) ∧ Chain cur stop ss ∧
      (∀ s ∈ ss, Latest data s ∧ Cut data stop s) ∧ Ready data stop it' := by
  intro fuel
  induction fuel with
  | zero => intro cur it _ _ hf; omega
  | succ fuel ih =>
    rintro cur it ⟨d, hd, hle, hnext⟩ hcur hf
    have hlen := (List.getElem?_eq_some_iff.1 hd).1
    by_cases hlt : cur < stop
    · rcases hn : data[it + 1]? with _ | n
      · refine ⟨[⟨d, cur, stop⟩], it, fun r => ?_, ⟨rfl, hlt, rfl⟩, ?_, d, hd, by omega, fun n' hn' => ?_⟩
        · simp only [loop, if_pos hlt, hd, hn, Option.bind_eq_bind, Option.bind_some]
          rw [loop_done _ _ _ _ _ _ (by omega)]
          rfl
        · intro s hs
          rw [List.mem_singleton] at hs
          subst hs
          exact ⟨latest_none h hd hn hle, .inl rfl⟩
        · rw [hn] at hn'; exact absurd hn' (by simp)
      · have hn1 := hnext n hn
        by_cases hs : n.time ≤ stop
        · have hr : Ready data n.time (it + 1) := ⟨n, hn, le_refl _, fun m hm => get_lt h hn hm (by omega)⟩
          obtain ⟨ss, it', e, hc, hl, hr'⟩ := ih n.time (it + 1) hr hs (by omega)
          refine ⟨⟨d, cur, n.time⟩ :: ss, it', fun r => ?_, ⟨rfl, hn1, hc⟩, ?_, hr'⟩
          · simp only [loop, if_pos hlt, hd, hn, Option.bind_eq_bind, Option.bind_some, min_eq_left hs, if_true]
            rw [e]
            rfl
          · intro s hs'
            rcases List.mem_cons.1 hs' with rfl | hs'
            · exact ⟨latest_some h hd hn hle (le_refl _), .inr ⟨n, List.mem_of_getElem? hn, rfl⟩⟩
            · exact hl s hs'
        · have hs' : stop < n.time := not_le.1 hs
          refine ⟨[⟨d, cur, stop⟩], it, fun r => ?_, ⟨rfl, hlt, rfl⟩, ?_, d, hd, by omega, fun n' hn' => ?_⟩
          · simp only [loop, if_pos hlt, hd, hn, Option.bind_eq_bind, Option.bind_some, min_eq_right hs'.le]
            rw [if_neg (by omega), loop_done _ _ _ _ _ _ (by omega)]
            rfl
          · intro s hs
            rw [List.mem_singleton] at hs
            subst hs
            exact ⟨latest_some h hd hn hle hs'.le, .inl rfl⟩
          · rw [hn] at hn'
            injection hn' with e
            rw [← e]
            exact hs'
    · have : cur = stop := by omega
      subst this
      refine ⟨[], it, fun r => ?_, rfl, by simp, d, hd, hle, hnext⟩
      rw [loop_done _ _ _ _ _ _ (by omega)]
      rfl

theorem integrate_measured (ticks : ℝ) {data : List Data} (h : Sorted data) {start stop : Int} {it : Nat} (h1 : start ≤ stop)
    (hr : Ready data start it) :
    ∃ r it', integrate id id ticks data start stop it = some (r, it') ∧ Measured ticks data start stop r ∧ Ready data stop it' := by
  obtain ⟨ss, it', e, hc, hl, hr'⟩ := loop_cut id id ticks h stop (data.length + 2) start it hr h1 (by omega)
  obtain ⟨d, hd, hle, hnext⟩ := hr
  refine ⟨resultOf id id ticks .zero ss, it', ?_, ⟨ss, hc, hl, rfl⟩, hr'⟩
  unfold integrate
  rw [if_neg (by omega), hd]
  simp only [Option.bind_eq_bind, Option.bind_some]
  rw [if_neg (by omega)]
  rcases hm : data[it + 1]? with _ | m
  · exact e _
  · simp only
    rw [if_neg (by have := hnext m hm; omega)]
    exact e _

/-- There is a measurement not after `a`. -/
def Started (data : List Data) (a : Int) : Prop := ∃ d ∈ data, d.time ≤ a

theorem Started.ready {data : List Data} (h : Sorted data) {a : Int} (hs : Started data a) : ∃ it, Ready data a it := by
  obtain ⟨d, hd, hle⟩ := hs
  obtain ⟨i, hi⟩ := List.getElem?_of_mem hd
  exact ⟨_, skip_ready h data.length i hi hle (by omega)⟩

theorem Started.measured (ticks : ℝ) {data : List Data} (h : Sorted data) {a b : Int} (hab : a ≤ b) (hs : Started data a) :
    ∃ r, Measured ticks data a b r := by
  obtain ⟨it, hr⟩ := hs.ready h
  obtain ⟨r, _, _, hm, _⟩ := integrate_measured ticks h hab hr
  exact ⟨r, hm⟩

/-- Data with less measurements: what is measured is the same if the measurement that is the latest at any time of the interval is kept. -/
theorem Measured.kept {ticks : ℝ} {data data' : List Data} {a b : Int} (hsub : ∀ d ∈ data', d ∈ data)
    (hk : ∀ d ∈ data, ∀ τ, a ≤ τ → τ ≤ b → d.time ≤ τ → (∀ e ∈ data, e.time ≤ τ → e.time ≤ d.time) → d ∈ data') {r : Result}
    (hm : Measured ticks data a b r) : Measured ticks data' a b r := by
  obtain ⟨ss, c, g, rfl⟩ := hm
  refine ⟨ss, c, ?_, rfl⟩
  intro s hs
  obtain ⟨L, C⟩ := g s hs
  obtain ⟨b1, b2, b3⟩ := (chain_bounds c).2 s hs
  refine ⟨⟨hk s.d L.1 s.start b1 (by omega) L.2.1 ?_, L.2.1, fun e he => L.2.2 e (hsub e he)⟩, ?_⟩
  · intro e he hle
    by_contra hc
    have := L.2.2 e he (by omega)
    omega
  · rcases C with C | ⟨e, he, C⟩
    · exact .inl C
    · exact .inr ⟨e, hk e he e.time (by omega) (by omega) le_rfl (fun _ _ hle => hle), C⟩

theorem measured_self {ticks : ℝ} {data : List Data} {a : Int} {r : Result} : Measured ticks data a a r ↔ r = .zero := by
  constructor
  · rintro ⟨ss, c, -, rfl⟩
    cases ss with
    | nil => rfl
    | cons s ss =>
      have := (chain_bounds c).2 s (by simp)
      omega
  · rintro rfl
    exact ⟨[], rfl, by simp, rfl⟩

theorem Measured.started {ticks : ℝ} {data : List Data} {a b : Int} (hlt : a < b) {r : Result} (h : Measured ticks data a b r) :
    Started data a := by
  obtain ⟨ss, c, g, -⟩ := h
  cases ss with
  | nil => have h3 : a = b := c; omega
  | cons s ss =>
    have hl := (g s (by simp)).1
    exact ⟨s.d, hl.1, by have := hl.2.1; have := c.1; omega⟩

theorem measured_kept_iff {ticks : ℝ} {data data' : List Data} (h : Sorted data) (h' : Sorted data') {a b : Int} (hab : a ≤ b)
    (hsub : ∀ d ∈ data', d ∈ data)
    (hk : ∀ d ∈ data, ∀ τ, a ≤ τ → τ ≤ b → d.time ≤ τ → (∀ e ∈ data, e.time ≤ τ → e.time ≤ d.time) → d ∈ data') {r : Result} :
    Measured ticks data' a b r ↔ Measured ticks data a b r := by
  refine ⟨fun hm => ?_, fun hm => hm.kept hsub hk⟩
  rcases eq_or_lt_of_le hab with rfl | hlt
  · rw [measured_self] at hm ⊢
    exact hm
  · obtain ⟨d, hd, hle⟩ := hm.started hlt
    obtain ⟨r', hr'⟩ := Started.measured ticks h hab ⟨d, hsub d hd, hle⟩
    rw [Measured.unique h' hm (hr'.kept hsub hk)]
    exact hr'

/-- The change of velocity from the centre of the first to the centre of the second interval, in the frame of the second node. -/
def Change (ticks : ℝ) (data : List Data) (t1 t2 t3 : Int) (v : V3) : Prop :=
  ∃ r r1 r2, Measured ticks data t1 t2 r ∧ Measured ticks data t1 (t1 + (t2 - t1).tdiv 2) r1 ∧
    Measured ticks data (t1 + (t2 - t1).tdiv 2) (t2 + (t3 - t2).tdiv 2) r2 ∧
    v = ((inverseQuat r.rotation).mul r1.rotation).rotate r2.velocity

theorem Started.change (ticks : ℝ) {data : List Data} (h : Sorted data) {a b c : Int} (hab : a ≤ b) (hbc : b ≤ c) (hs : Started data a) :
    ∃ v, Change ticks data a b c v := by
  have ha := tdiv_half (show 0 ≤ b - a by omega)
  have hb := tdiv_half (show 0 ≤ c - b by omega)
  obtain ⟨r, hr⟩ := hs.measured ticks h hab
  obtain ⟨r1, hr1⟩ := hs.measured ticks h (show a ≤ a + (b - a).tdiv 2 by omega)
  obtain ⟨d, hd, hle⟩ := hs
  obtain ⟨r2, hr2⟩ := Started.measured ticks h (show a + (b - a).tdiv 2 ≤ b + (c - b).tdiv 2 by omega) ⟨d, hd, by omega⟩
  exact ⟨_, r, r1, r2, hr, hr1, hr2, rfl⟩

theorem change_kept_iff {ticks : ℝ} {data data' : List Data} (h : Sorted data) (h' : Sorted data') {a b c : Int} (hab : a ≤ b) (hbc : b ≤ c)
    (hsub : ∀ d ∈ data', d ∈ data)
    (hk : ∀ d ∈ data, ∀ τ, a ≤ τ → τ ≤ c → d.time ≤ τ → (∀ e ∈ data, e.time ≤ τ → e.time ≤ d.time) → d ∈ data') {v : V3} :
    Change ticks data' a b c v ↔ Change ticks data a b c v := by
  have ha := tdiv_half (show 0 ≤ b - a by omega)
  have hb := tdiv_half (show 0 ≤ c - b by omega)
  unfold Change
  refine exists_congr fun r => exists_congr fun r1 => exists_congr fun r2 => ?_
  rw [measured_kept_iff h h' hab hsub fun d hd τ h1 h2 => hk d hd τ h1 (by omega),
    measured_kept_iff h h' (show a ≤ a + (b - a).tdiv 2 by omega) hsub fun d hd τ h1 h2 => hk d hd τ h1 (by omega),
    measured_kept_iff h h' (show a + (b - a).tdiv 2 ≤ b + (c - b).tdiv 2 by omega) hsub fun d hd τ h1 h2 => hk d hd τ (by omega) (by omega)]

end Verif.Imu

namespace Verif.OptProblem3

open MapById Rigid

set_option linter.unusedSectionVars false

variable {T G : Type} [LinearOrder T] [Group G] (S : Setup T G)

/-! ### The loop over the nodes of a trajectory -/

/-- Nodes in the order of their indices and times. -/
def InOrder (L : List (Int × Node T G)) : Prop := L.Pairwise fun a b => a.1 < b.1 ∧ S.tick a.2.time ≤ S.tick b.2.time

/-- All pairs of consecutive nodes have a measurement before. -/
def AllStarted (data : List Imu.Data) (L : List (Int × Node T G)) : Prop :=
  ∀ k m n, (k, m) ∈ L → (k + 1, n) ∈ L → Imu.Started data (S.tick m.time)

/-- The blocks are exactly those for consecutive nodes of `L`. -/
structure Exact (data : List Imu.Data) (t : Int) (L : List (Int × Node T G)) (bs : List (Block T G)) : Prop where
  two : ∀ b, Block.two b ∉ bs
  rotation : ∀ i j q d, Block.rotation i j q d ∈ bs ↔ ∃ k m n r, (k, m) ∈ L ∧ (k + 1, n) ∈ L ∧ i = (t, k) ∧ j = (t, k + 1) ∧
    d = S.tick n.time - S.tick m.time ∧ Imu.Measured S.ticks data (S.tick m.time) (S.tick n.time) r ∧ q = r.rotation
  acceleration : ∀ i j k v d1 d2, Block.acceleration i j k v d1 d2 ∈ bs ↔ ∃ x m n o, (x, m) ∈ L ∧ (x + 1, n) ∈ L ∧ (x + 2, o) ∈ L ∧
    i = (t, x) ∧ j = (t, x + 1) ∧ k = (t, x + 2) ∧ d1 = S.tick n.time - S.tick m.time ∧ d2 = S.tick o.time - S.tick n.time ∧
    Imu.Change S.ticks data (S.tick m.time) (S.tick n.time) (S.tick o.time) v
  nodup : bs.Pairwise fun b c => match b, c with
    | .rotation i .., .rotation j .. => i ≠ j
    | .acceleration i .., .acceleration j .. => i ≠ j
    | _, _ => True

/-- Where `imu_it` is: at the beginning or at a measurement not after the node. -/
def At (data : List Imu.Data) (a : Int) (it : Nat) : Prop := it = 0 ∨ ∃ d, data[it]? = some d ∧ d.time ≤ a

theorem At.skip {data : List Imu.Data} (h : Imu.Sorted data) {a : Int} {it : Nat} (hi : At data a it) :
    (Imu.Started data a → Imu.Ready data a (Imu.skip data a data.length it)) ∧
    (¬ Imu.Started data a → ∀ b, Imu.integrate id id S.ticks data a b (Imu.skip data a data.length it) = none) := by
  constructor
  · intro hs
    rcases hi with rfl | ⟨d, hd, hle⟩
    · obtain ⟨d, hd, hle⟩ := hs
      cases data with
      | nil => cases hd
      | cons e data =>
        refine Imu.skip_ready h (e :: data).length 0 (d := e) rfl ?_ (by omega)
        rcases List.mem_cons.1 hd with rfl | hd
        · exact hle
        · have := (List.pairwise_cons.1 h).1 d hd
          omega
    · exact Imu.skip_ready h data.length it hd hle (by omega)
  · intro hs b
    refine (Imu.integrate_spec id id S.ticks h a b _).1 ?_
    rintro ⟨_, d, hd, hle, _⟩
    exact hs ⟨d, List.mem_of_getElem? hd, hle⟩

theorem accelerationBlock_spec {data : List Imu.Data} (h : Imu.Sorted data) (t : Int) {a b : Int × Node T G} {L : List (Int × Node T G)}
    (ho : InOrder S (a :: b :: L)) {r : Imu.Result} (hm : Imu.Measured S.ticks data (S.tick a.2.time) (S.tick b.2.time) r) {it : Nat}
    (hr : Imu.Ready data (S.tick a.2.time) it) :
    (∃ c L' v, L = c :: L' ∧ c.1 = b.1 + 1 ∧ Imu.Change S.ticks data (S.tick a.2.time) (S.tick b.2.time) (S.tick c.2.time) v ∧
      accelerationBlock S data t a b r it L = some [.acceleration (t, a.1) (t, b.1) (t, c.1) v (S.tick b.2.time - S.tick a.2.time)
        (S.tick c.2.time - S.tick b.2.time)]) ∨
    ((∀ c ∈ L, c.1 ≠ b.1 + 1) ∧ accelerationBlock S data t a b r it L = some []) := by
  obtain ⟨h1, h2⟩ := List.pairwise_cons.1 ho
  obtain ⟨h2, h3⟩ := List.pairwise_cons.1 h2
  cases L with
  | nil => exact .inr ⟨by simp, rfl⟩
  | cons c L =>
    by_cases hc : c.1 = b.1 + 1
    · refine .inl ?_
      have ab := (h1 b (by simp)).2
      have bc := (h2 c (by simp)).2
      have ha := Imu.tdiv_half (show 0 ≤ S.tick b.2.time - S.tick a.2.time by omega)
      have hb := Imu.tdiv_half (show 0 ≤ S.tick c.2.time - S.tick b.2.time by omega)
      obtain ⟨r1, i1, e1, m1, k1⟩ := Imu.integrate_measured S.ticks h
        (show S.tick a.2.time ≤ S.tick a.2.time + (S.tick b.2.time - S.tick a.2.time).tdiv 2 by omega) hr
      obtain ⟨r2, i2, e2, m2, _⟩ := Imu.integrate_measured S.ticks h
        (show S.tick a.2.time + (S.tick b.2.time - S.tick a.2.time).tdiv 2 ≤ S.tick b.2.time + (S.tick c.2.time - S.tick b.2.time).tdiv 2
          by omega) k1
      refine ⟨c, L, ((Imu.inverseQuat r.rotation).mul r1.rotation).rotate r2.velocity, rfl, hc, ⟨r, r1, r2, hm, m1, m2, rfl⟩, ?_⟩
      simp only [accelerationBlock, if_pos hc, e1, e2, Option.bind_eq_bind, Option.bind_some]
    · refine .inr ⟨?_, by simp only [accelerationBlock, if_neg hc]⟩
      intro d hd
      rcases List.mem_cons.1 hd with rfl | hd
      · exact hc
      · have := ((List.pairwise_cons.1 h3).1 d hd).1
        have := (h2 c (by simp)).1
        omega

theorem pair_cases {a b : Int × Node T G} {L : List (Int × Node T G)} (ho : InOrder S (a :: b :: L)) {k : Int} {m n : Node T G}
    (hk : (k, m) ∈ a :: b :: L) (hn : (k + 1, n) ∈ a :: b :: L) :
    ((k, m) = a ∧ (k + 1, n) = b) ∨ ((k, m) ∈ b :: L ∧ (k + 1, n) ∈ b :: L) := by
  obtain ⟨h1, ho'⟩ := List.pairwise_cons.1 ho
  have hab := h1 b (by simp)
  have hidx : ∀ x ∈ b :: L, b.1 ≤ x.1 := by
    intro x hx
    rcases List.mem_cons.1 hx with rfl | hx
    · exact le_rfl
    · exact ((List.pairwise_cons.1 ho').1 x hx).1.le
  have hidx' : ∀ x ∈ L, b.1 < x.1 := fun x hx => ((List.pairwise_cons.1 ho').1 x hx).1
  rcases List.mem_cons.1 hn with hn | hn
  · exfalso
    rcases List.mem_cons.1 hk with hk | hk
    · rw [← hk] at hn; simp at hn
    · have := hidx _ hk
      rw [← hn] at hab
      have := hab.1
      simp only at *
      omega
  · rcases List.mem_cons.1 hk with hk | hk
    · rcases List.mem_cons.1 hn with hn | hn
      · exact .inl ⟨hk, hn⟩
      · exfalso
        have := hidx' _ hn
        rw [← hk] at hab
        have := hab.1
        simp only at *
        omega
    · exact .inr ⟨hk, hn⟩

theorem imuLoop_spec {data : List Imu.Data} (h : Imu.Sorted data) (t : Int) : ∀ (L : List (Int × Node T G)) (a : Int × Node T G) (it : Nat),
    InOrder S (a :: L) → At data (S.tick a.2.time) it →
    (¬ AllStarted S data (a :: L) → imuLoop S data t a L it = none) ∧
    (AllStarted S data (a :: L) → ∃ bs, imuLoop S data t a L it = some bs ∧ Exact S data t (a :: L) bs) := by
  intro L
  induction L with
  | nil =>
    intro a it _ _
    have hp : ∀ k (m n : Node T G), (k, m) ∈ [a] → (k + 1, n) ∈ [a] → False := by
      intro k m n h1 h2
      rw [List.mem_singleton] at h1 h2
      rw [← h1] at h2
      simp at h2
    refine ⟨fun hn => absurd (fun k m n h1 h2 => (hp k m n h1 h2).elim) hn, fun _ => ⟨[], rfl, ?_, ?_, ?_, .nil⟩⟩
    · simp
    · intro i j q d
      simp only [List.not_mem_nil, false_iff]
      rintro ⟨k, m, n, r, h1, h2, -⟩
      exact hp k m n h1 h2
    · intro i j k v d1 d2
      simp only [List.not_mem_nil, false_iff]
      rintro ⟨x, m, n, o, h1, h2, -⟩
      exact hp x m n h1 h2
  | cons b L ih =>
    intro a it ho hi
    obtain ⟨h1, ho'⟩ := List.pairwise_cons.1 ho
    obtain ⟨h2, h3⟩ := List.pairwise_cons.1 ho'
    have hab := h1 b (by simp)
    -- indices of the later nodes
    have hidx : ∀ x ∈ b :: L, b.1 ≤ x.1 := by
      intro x hx
      rcases List.mem_cons.1 hx with rfl | hx
      · exact le_rfl
      · exact (h2 x hx).1.le
    have hidx' : ∀ x ∈ L, b.1 < x.1 := fun x hx => (h2 x hx).1
    -- pairs of the whole list
    have hpair := fun k m n => pair_cases S ho (k := k) (m := m) (n := n)
    by_cases hc : b.1 = a.1 + 1
    · -- a pair
      have hpab : ((a.1, a.2) : Int × Node T G) ∈ a :: b :: L ∧ ((a.1 + 1, b.2) : Int × Node T G) ∈ a :: b :: L := by
        refine ⟨by simp, ?_⟩
        rw [← hc]; simp
      by_cases hs : Imu.Started data (S.tick a.2.time)
      · have hr := (hi.skip S h).1 hs
        obtain ⟨r, it2, e1, m1, k1⟩ := Imu.integrate_measured S.ticks h hab.2 hr
        have hat : At data (S.tick b.2.time) it2 := by
          obtain ⟨d, hd, hle, _⟩ := k1
          exact .inr ⟨d, hd, hle⟩
        obtain ⟨ihn, ihs⟩ := ih b it2 ho' hat
        have hall : AllStarted S data (a :: b :: L) ↔ AllStarted S data (b :: L) := by
          constructor
          · intro hA k m n hk hn
            exact hA k m n (List.mem_cons_of_mem _ hk) (List.mem_cons_of_mem _ hn)
          · intro hA k m n hk hn
            rcases hpair k m n hk hn with ⟨e, _⟩ | ⟨hk, hn⟩
            · have : m = a.2 := by rw [← e]
              rw [this]; exact hs
            · exact hA k m n hk hn
        have hacc := accelerationBlock_spec S h t ho m1 hr
        constructor
        · intro hn
          have e2 := ihn (fun hA => hn (hall.2 hA))
          have hloop : ∀ acc, accelerationBlock S data t a b r (Imu.skip data (S.tick a.2.time) data.length it) L = some acc →
              imuLoop S data t a (b :: L) it = none := by
            intro acc e3
            rw [imuLoop, if_neg (by simp [hc])]
            simp only [e1, Option.bind_eq_bind, Option.bind_some]
            rw [e3, Option.bind_some, e2, Option.bind_none]
          rcases hacc with ⟨c, L', v, -, -, -, e3⟩ | ⟨-, e3⟩
          · exact hloop _ e3
          · exact hloop _ e3
        · intro hA
          obtain ⟨bs, e2, X⟩ := ihs (hall.1 hA)
          -- the rotation block of the pair and those of the rest
          have hrot : ∀ (acc : List (Block T G)), (∀ i j q d, Block.rotation i j q d ∉ acc) → ∀ i j q d,
              Block.rotation i j q d ∈ acc ++ Block.rotation (t, a.1) (t, b.1) r.rotation (S.tick b.2.time - S.tick a.2.time) :: bs ↔
              ∃ k m n r, (k, m) ∈ a :: b :: L ∧ (k + 1, n) ∈ a :: b :: L ∧ i = (t, k) ∧ j = (t, k + 1) ∧
                d = S.tick n.time - S.tick m.time ∧ Imu.Measured S.ticks data (S.tick m.time) (S.tick n.time) r ∧ q = r.rotation := by
            intro acc hacc i j q d
            rw [List.mem_append, List.mem_cons, X.rotation]
            constructor
            · rintro (hf | hf | ⟨k, m, n, r', hk, hn, rest⟩)
              · exact absurd hf (hacc i j q d)
              · cases hf
                exact ⟨a.1, a.2, b.2, r, hpab.1, hpab.2, rfl, by rw [hc], rfl, m1, rfl⟩
              · exact ⟨k, m, n, r', List.mem_cons_of_mem _ hk, List.mem_cons_of_mem _ hn, rest⟩
            · rintro ⟨k, m, n, r', hk, hn, rfl, rfl, rfl, hm, rfl⟩
              rcases hpair k m n hk hn with ⟨ea, eb⟩ | ⟨hk, hn⟩
              · have e3 : k = a.1 := by rw [← ea]
                have e4 : m = a.2 := by rw [← ea]
                have e5 : n = b.2 := by rw [← eb]
                subst e3 e4 e5
                rw [Imu.Measured.unique h hm m1, hc]
                exact .inr (.inl rfl)
              · exact .inr (.inr ⟨k, m, n, r', hk, hn, rfl, rfl, rfl, hm, rfl⟩)
          have hfirstR : ∀ i j q d, Block.rotation i j q d ∈ bs → i ≠ (t, a.1) := by
            intro i j q d hb he
            obtain ⟨k, m, n, -, hk, -, rfl, -⟩ := (X.rotation i j q d).1 hb
            have := hidx _ hk
            simp only [Prod.mk.injEq, true_and] at he
            simp only at this
            omega
          have hfirstA : ∀ i j k v d1 d2, Block.acceleration i j k v d1 d2 ∈ bs → i ≠ (t, a.1) := by
            intro i j k v d1 d2 hb he
            obtain ⟨x, m, n, o, hk, -, -, rfl, -⟩ := (X.acceleration i j k v d1 d2).1 hb
            have := hidx _ hk
            simp only [Prod.mk.injEq, true_and] at he
            simp only at this
            omega
          have hnodup : (Block.rotation (t, a.1) (t, b.1) r.rotation (S.tick b.2.time - S.tick a.2.time) :: bs).Pairwise
              fun b c => match b, c with
                | .rotation i .., .rotation j .. => i ≠ j
                | .acceleration i .., .acceleration j .. => i ≠ j
                | _, _ => True := by
            refine List.pairwise_cons.2 ⟨?_, X.nodup⟩
            intro blk hblk
            cases blk with
            | two _ => trivial
            | rotation i j q d => exact fun e => hfirstR i j q d hblk e.symm
            | acceleration => trivial
          have hloop : ∀ acc, accelerationBlock S data t a b r (Imu.skip data (S.tick a.2.time) data.length it) L = some acc →
              imuLoop S data t a (b :: L) it =
                some (acc ++ Block.rotation (t, a.1) (t, b.1) r.rotation (S.tick b.2.time - S.tick a.2.time) :: bs) := by
            intro acc e3
            rw [imuLoop, if_neg (by simp [hc])]
            simp only [e1, Option.bind_eq_bind, Option.bind_some]
            rw [e3, Option.bind_some, e2, Option.bind_some]
          rcases hacc with ⟨c, L', v, rfl, hcc, hv, e3⟩ | ⟨hno, e3⟩
          · refine ⟨_, hloop _ e3, ?_, ?_, ?_, ?_⟩
            · intro b'; simp [X.two b']
            · exact hrot _ (by simp)
            · intro i j k v' d1 d2
              simp only [List.cons_append, List.nil_append, List.mem_cons, reduceCtorEq, false_or]
              rw [X.acceleration]
              constructor
              · rintro (hf | ⟨x, m, n, o, hx, hn, ho, rest⟩)
                · cases hf
                  refine ⟨a.1, a.2, b.2, c.2, by simp, ?_, ?_, rfl, by rw [hc], ?_, rfl, rfl, hv⟩
                  · rw [← hc]; simp
                  · rw [show a.1 + 2 = c.1 by omega]; simp
                  · rw [show a.1 + 2 = c.1 by omega]
                · exact ⟨x, m, n, o, .inr (by simpa using hx), .inr (by simpa using hn), .inr (by simpa using ho), rest⟩
              · rintro ⟨x, m, n, o, hx, hn, hoo, rfl, rfl, rfl, rfl, rfl, hv'⟩
                have hx' : (x, m) ∈ a :: b :: c :: L' := by simpa using hx
                have hn' : (x + 1, n) ∈ a :: b :: c :: L' := by simpa using hn
                have ho2 : (x + 1 + 1, o) ∈ a :: b :: c :: L' := by rw [show x + 1 + 1 = x + 2 by omega]; simpa using hoo
                rcases hpair x m n hx' hn' with ⟨ea, eb⟩ | ⟨hk, hn2⟩
                · left
                  have e3 : x = a.1 := by rw [← ea]
                  have e4 : m = a.2 := by rw [← ea]
                  have e5 : n = b.2 := by rw [← eb]
                  have e6 : o = c.2 := by
                    have hcm : ((x + 1 + 1, c.2) : Int × Node T G) ∈ a :: b :: c :: L' := by
                      rw [show x + 1 + 1 = c.1 by omega]; simp
                    have hnd : ((a :: b :: c :: L').map (·.1)).Nodup := by
                      rw [List.Nodup, List.pairwise_map]
                      exact ho.imp (fun h => ne_of_lt h.1)
                    have := List.inj_on_of_nodup_map hnd ho2 hcm rfl
                    simpa using this
                  subst e3 e4 e5 e6
                  have : v' = v := by
                    obtain ⟨q, q1, q2, w, w1, w2, rfl⟩ := hv
                    obtain ⟨q', q1', q2', w', w1', w2', rfl⟩ := hv'
                    rw [Imu.Measured.unique h w w', Imu.Measured.unique h w1 w1', Imu.Measured.unique h w2 w2']
                  rw [this, hc, show a.1 + 1 + 1 = a.1 + 2 by omega] at *
                  rw [show c.1 = a.1 + 2 by omega]
                · right
                  refine ⟨x, m, n, o, hk, hn2, ?_, rfl, rfl, rfl, rfl, rfl, hv'⟩
                  rcases List.mem_cons.1 ho2 with e | ho3
                  · exfalso
                    have := hidx _ hk
                    rw [← e] at hab
                    have := hab.1
                    simp only at *
                    omega
                  · rw [show x + 2 = x + 1 + 1 by omega]; exact ho3
            · refine List.pairwise_cons.2 ⟨?_, hnodup⟩
              intro blk hblk
              rcases List.mem_cons.1 hblk with rfl | hblk
              · trivial
              · cases blk with
                | two _ => trivial
                | rotation => trivial
                | acceleration i j k v d1 d2 => exact fun e => hfirstA i j k v d1 d2 hblk e.symm
          · refine ⟨_, hloop _ e3, ?_, ?_, ?_, ?_⟩
            · intro b'; simp [X.two b']
            · exact hrot _ (by simp)
            · intro i j k v' d1 d2
              simp only [List.nil_append, List.mem_cons, reduceCtorEq, false_or]
              rw [X.acceleration]
              constructor
              · rintro ⟨x, m, n, o, hx, hn, ho, rest⟩
                exact ⟨x, m, n, o, .inr (by simpa using hx), .inr (by simpa using hn), .inr (by simpa using ho), rest⟩
              · rintro ⟨x, m, n, o, hx, hn, hoo, rest⟩
                have hx' : (x, m) ∈ a :: b :: L := by simpa using hx
                have hn' : (x + 1, n) ∈ a :: b :: L := by simpa using hn
                have ho2 : (x + 1 + 1, o) ∈ a :: b :: L := by rw [show x + 1 + 1 = x + 2 by omega]; simpa using hoo
                rcases hpair x m n hx' hn' with ⟨ea, eb⟩ | ⟨hk, hn2⟩
                · exfalso
                  have e3 : x = a.1 := by rw [← ea]
                  rcases List.mem_cons.1 ho2 with e | ho3
                  · have : x + 1 + 1 = a.1 := by rw [← e]
                    omega
                  · rcases List.mem_cons.1 ho3 with e | ho4
                    · have : x + 1 + 1 = b.1 := by rw [← e]
                      omega
                    · exact hno _ ho4 (by simp only; omega)
                · refine ⟨x, m, n, o, hk, hn2, ?_, rest⟩
                  rcases List.mem_cons.1 ho2 with e | ho3
                  · exfalso
                    have := hidx _ hk
                    rw [← e] at hab
                    have := hab.1
                    simp only at *
                    omega
                  · rw [show x + 2 = x + 1 + 1 by omega]; exact ho3
            · exact hnodup
      · have e1 := (hi.skip S h).2 hs (S.tick b.2.time)
        refine ⟨fun _ => by simp [imuLoop, hc, e1], fun hA => absurd (hA a.1 a.2 b.2 hpab.1 hpab.2) hs⟩
    · -- no pair
      have hat : At data (S.tick b.2.time) it := by
        rcases hi with rfl | ⟨d, hd, hle⟩
        · exact .inl rfl
        · exact .inr ⟨d, hd, le_trans hle hab.2⟩
      have hpair' : ∀ k (m n : Node T G), (k, m) ∈ a :: b :: L → (k + 1, n) ∈ a :: b :: L → (k, m) ∈ b :: L ∧ (k + 1, n) ∈ b :: L := by
        intro k m n hk hn
        rcases hpair k m n hk hn with ⟨ea, eb⟩ | hh
        · exfalso
          have : k = a.1 := by rw [← ea]
          have : k + 1 = b.1 := by rw [← eb]
          omega
        · exact hh
      have hall : AllStarted S data (a :: b :: L) ↔ AllStarted S data (b :: L) :=
        ⟨fun hA k m n hk hn => hA k m n (List.mem_cons_of_mem _ hk) (List.mem_cons_of_mem _ hn),
          fun hA k m n hk hn => hA k m n (hpair' k m n hk hn).1 (hpair' k m n hk hn).2⟩
      obtain ⟨ihn, ihs⟩ := ih b it ho' hat
      constructor
      · intro hn
        simpa [imuLoop, hc] using ihn (fun hA => hn (hall.2 hA))
      · intro hA
        obtain ⟨bs, e, X⟩ := ihs (hall.1 hA)
        refine ⟨bs, by simpa [imuLoop, hc] using e, X.two, ?_, ?_, X.nodup⟩
        · intro i j q d
          rw [X.rotation]
          constructor
          · rintro ⟨k, m, n, r, hk, hn, rest⟩
            exact ⟨k, m, n, r, List.mem_cons_of_mem _ hk, List.mem_cons_of_mem _ hn, rest⟩
          · rintro ⟨k, m, n, r, hk, hn, rest⟩
            exact ⟨k, m, n, r, (hpair' k m n hk hn).1, (hpair' k m n hk hn).2, rest⟩
        · intro i j k v d1 d2
          rw [X.acceleration]
          constructor
          · rintro ⟨x, m, n, o, hx, hn, hoo, rest⟩
            exact ⟨x, m, n, o, List.mem_cons_of_mem _ hx, List.mem_cons_of_mem _ hn, List.mem_cons_of_mem _ hoo, rest⟩
          · rintro ⟨x, m, n, o, hx, hn, hoo, rest⟩
            have ho2 : (x + 1 + 1, o) ∈ a :: b :: L := by rw [show x + 1 + 1 = x + 2 by omega]; exact hoo
            refine ⟨x, m, n, o, (hpair' x m n hx hn).1, (hpair' x m n hx hn).2, ?_, rest⟩
            have := (hpair' (x + 1) n o hn ho2).2
            rwa [show x + 1 + 1 = x + 2 by omega] at this

/-! ### Consecutive nodes with `fix_z_in_3d` -/

theorem pairLoop_spec (od : MapByTime.Map T (OptProblem.Reading T G)) (t : Int) : ∀ (L : List (Int × Node T G)) (a : Int × Node T G),
    InOrder S (a :: L) →
    (pairLoop S od t a L).Nodup ∧
    ∀ blk, blk ∈ pairLoop S od t a L ↔ ∃ k m n, (k, m) ∈ a :: L ∧ (k + 1, n) ∈ a :: L ∧
      (blk = .two (.localSlam (t, k) (t, k + 1) (m.localPose⁻¹ * n.localPose)) ∨
        ∃ g, odometryBetween S od t m n = some g ∧ blk = .two (.odometry (t, k) (t, k + 1) g)) := by
  intro L
  induction L with
  | nil =>
    intro a _
    refine ⟨.nil, fun blk => ?_⟩
    simp only [pairLoop, List.not_mem_nil, false_iff]
    rintro ⟨k, m, n, h1, h2, -⟩
    rw [List.mem_singleton] at h1 h2
    rw [← h1] at h2
    simp at h2
  | cons b L ih =>
    intro a ho
    obtain ⟨h1, ho'⟩ := List.pairwise_cons.1 ho
    obtain ⟨h2, -⟩ := List.pairwise_cons.1 ho'
    obtain ⟨ihn, ihm⟩ := ih b ho'
    have hpair := fun k m n => pair_cases S ho (k := k) (m := m) (n := n)
    have hab := (h1 b (by simp)).1
    have hge : ∀ k m, ((k, m) : Int × Node T G) ∈ b :: L → a.1 < k := fun k m hk => (h1 _ hk).1
    unfold pairLoop
    by_cases hc : b.1 = a.1 + 1
    · rw [if_neg (by simp [hc])]
      have hmem : ∀ blk, blk ∈ ((match odometryBetween S od t a.2 b.2 with
          | some pose => [Block.two (.odometry (t, a.1) (t, b.1) pose)]
          | none => []) ++ Block.two (.localSlam (t, a.1) (t, b.1) (a.2.localPose⁻¹ * b.2.localPose)) :: pairLoop S od t b L) ↔
          (blk = .two (.localSlam (t, a.1) (t, b.1) (a.2.localPose⁻¹ * b.2.localPose)) ∨
            ∃ g, odometryBetween S od t a.2 b.2 = some g ∧ blk = .two (.odometry (t, a.1) (t, b.1) g)) ∨ blk ∈ pairLoop S od t b L := by
        intro blk
        cases odometryBetween S od t a.2 b.2 <;> simp [or_assoc, or_left_comm]
      constructor
      · have hno : ∀ i j g, (Block.two (.localSlam i j g) ∈ pairLoop S od t b L → i ≠ (t, a.1)) ∧
            (Block.two (.odometry i j g) ∈ pairLoop S od t b L → i ≠ (t, a.1)) := by
          intro i j g
          constructor
          · intro hb he
            obtain ⟨k, m, n, hk, -, e | ⟨g', -, e⟩⟩ := (ihm _).1 hb
            · have := hge k m hk
              simp only [Block.two.injEq, OptProblem.Block.localSlam.injEq] at e
              rw [he] at e
              simp only [Prod.mk.injEq, true_and] at e
              omega
            · simp at e
          · intro hb he
            obtain ⟨k, m, n, hk, -, e | ⟨g', -, e⟩⟩ := (ihm _).1 hb
            · simp at e
            · have := hge k m hk
              simp only [Block.two.injEq, OptProblem.Block.odometry.injEq] at e
              rw [he] at e
              simp only [Prod.mk.injEq, true_and] at e
              omega
        cases odometryBetween S od t a.2 b.2 with
        | none =>
          simp only [List.nil_append]
          exact List.nodup_cons.2 ⟨fun h => (hno _ _ _).1 h rfl, ihn⟩
        | some g =>
          simp only [List.cons_append, List.nil_append]
          refine List.nodup_cons.2 ⟨?_, List.nodup_cons.2 ⟨fun h => (hno _ _ _).1 h rfl, ihn⟩⟩
          intro h
          rcases List.mem_cons.1 h with h | h
          · simp at h
          · exact (hno _ _ _).2 h rfl
      · intro blk
        refine Iff.trans (hmem blk) ?_
        rw [ihm]
        constructor
        · rintro (h | ⟨k, m, n, hk, hn, h⟩)
          · refine ⟨a.1, a.2, b.2, by simp, by rw [← hc]; simp, ?_⟩
            rw [← hc]; exact h
          · exact ⟨k, m, n, List.mem_cons_of_mem _ hk, List.mem_cons_of_mem _ hn, h⟩
        · rintro ⟨k, m, n, hk, hn, h⟩
          rcases hpair k m n hk hn with ⟨ea, eb⟩ | ⟨hk, hn⟩
          · left
            have e3 : k = a.1 := by rw [← ea]
            have e4 : m = a.2 := by rw [← ea]
            have e5 : n = b.2 := by rw [← eb]
            subst e3 e4 e5
            rw [hc]; exact h
          · exact .inr ⟨k, m, n, hk, hn, h⟩
    · rw [if_pos hc]
      refine ⟨ihn, fun blk => ?_⟩
      rw [ihm]
      constructor
      · rintro ⟨k, m, n, hk, hn, h⟩
        exact ⟨k, m, n, List.mem_cons_of_mem _ hk, List.mem_cons_of_mem _ hn, h⟩
      · rintro ⟨k, m, n, hk, hn, h⟩
        rcases hpair k m n hk hn with ⟨ea, eb⟩ | ⟨hk, hn⟩
        · exfalso
          have : k = a.1 := by rw [← ea]
          have : k + 1 = b.1 := by rw [← eb]
          omega
        · exact ⟨k, m, n, hk, hn, h⟩

/-! ### Fixed frames -/

/-- The blocks are those of the nodes with a fixed frame pose, and the first such node gives the starting point. -/
theorem frameLoop_spec (tr : List (T × OptProblem.Reading T (Option G))) (origin : Option G) (t : Int) :
    ∀ (L : List (Int × Node T G)) (start : Option G),
    (frameLoop S tr origin t L start).1 = L.filterMap (fun x => (OptProblem.interpolateFixedFrame S.two tr x.2.time).map
      fun g => .two (.fixedFrame t (t, x.1) g)) ∧
    (frameLoop S tr origin t L start).2 = start.or (L.findSome? fun x => (OptProblem.interpolateFixedFrame S.two tr x.2.time).map
      fun g => S.yaw (origin.getD (x.2.globalPose * g⁻¹))) := by
  intro L
  induction L with
  | nil => intro start; simp [frameLoop]
  | cons x L ih =>
    intro start
    unfold frameLoop
    cases hx : OptProblem.interpolateFixedFrame S.two tr x.2.time with
    | none =>
      obtain ⟨e1, e2⟩ := ih start
      simp only [e1, e2]
      constructor
      · rw [List.filterMap_cons, hx]; rfl
      · rw [List.findSome?_cons, hx]; rfl
    | some g =>
      obtain ⟨e1, e2⟩ := ih (some (start.getD (S.yaw (origin.getD (x.2.globalPose * g⁻¹)))))
      simp only [e1, e2]
      constructor
      · rw [List.filterMap_cons, hx]; rfl
      · rw [List.findSome?_cons, hx]
        cases start <;> rfl

end Verif.OptProblem3
