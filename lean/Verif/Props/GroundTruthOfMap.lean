import Verif.GroundTruthOfMap
import Verif.Props.GroundTruth
import Verif.Props.LocalSlamGraph
import Verif.Props.PoseGraphProto

/-!
# C125: ground truth of a map
-/

namespace Verif.GroundTruthOfMap

open MapById Verif.PoseGraph Verif.Rigid
open Verif.GroundTruth (representatives generate)

/-! ### Representative nodes -/

/-- What the loop does depends only on the ids of the constraints within submaps. -/
def reps : List Int → List (Id × Id) → Option (List Int)
  | acc, [] => some acc
  | acc, p :: ps =>
    if p.1.1 = 0 ∧ p.2.1 = 0 then
      if p.1.2 ≤ acc.length then reps acc ps
      else if p.1.2 = acc.length + 1 then reps (acc ++ [p.2.2]) ps
      else none
    else none

theorem representatives_eq (cs : List (PoseGraph.Constraint Rigid3)) : ∀ acc, representatives acc (cs.map constraintProto) =
    reps acc ((cs.filter fun c => c.intra).map fun c => (c.submap, c.node)) := by
  induction cs with
  | nil => intro acc; rfl
  | cons c cs ih =>
    intro acc
    by_cases hc : c.intra = true
    · simp only [List.map_cons, representatives, constraintProto, hc, if_true, List.filter_cons_of_pos, reps]
      split
      · split
        · exact ih _
        · split
          · exact ih _
          · rfl
      · rfl
    · have hc' : c.intra = false := by simpa using hc
      simp only [List.map_cons, representatives, constraintProto, hc', Bool.false_eq_true, if_false]
      rw [List.filter_cons_of_neg (by simp [hc'])]
      exact ih _

theorem reps_append (a b : List (Id × Id)) : ∀ acc, reps acc (a ++ b) = (reps acc a).bind fun v => reps v b := by
  induction a with
  | nil => intro acc; rfl
  | cons c a ih =>
    intro acc
    simp only [List.cons_append, reps]
    split
    · split
      · exact ih _
      · split
        · exact ih _
        · rfl
    · rfl

/-- The middles of the first submaps: the node with which the submap after begins. -/
def middles (n m : Nat) : List Int := (List.range (m - 1)).map fun k : Nat => (((k + 1) * n : Nat) : Int)

/-- Constraints of local SLAM, only those of the first `m` submaps: the representatives are the middles. -/
theorem reps_links {S : Setup} {m : Nat} (f : Id → Bool) {c : Nat} (hf : ∀ i : Nat, i < submapCount (S.n 0) c → (f (0, (i : Int)) = true ↔ i < m)) :
    reps [] (((List.range c).flatMap (S.links 0)).filter fun p => f p.1) = some (middles (S.n 0) (min (submapCount (S.n 0) c) m)) := by
  have hn := S.pos 0
  induction c with
  | zero =>
    have : submapCount (S.n 0) 0 = 0 := by
      have := submapCount_zero (q := 0) hn
      simpa using this
    simp [reps, middles, this]
  | succ j ih =>
    obtain ⟨q, r, hr, hj⟩ : ∃ q r, r < S.n 0 ∧ j = q * S.n 0 + r :=
      ⟨j / S.n 0, j % S.n 0, Nat.mod_lt _ hn, by rw [Nat.mul_comm]; exact (Nat.div_add_mod _ _).symm⟩
    have hc1 : submapCount (S.n 0) (j + 1) = q + 1 := by rw [hj]; exact submapCount_succ hr
    have hc0 : submapCount (S.n 0) j = if r = 0 then q else q + 1 := by
      split
      · rename_i h0
        rw [hj, h0, Nat.add_zero]; exact submapCount_zero hn
      · rename_i h0
        obtain ⟨r', rfl⟩ : ∃ r', r = r' + 1 := ⟨r - 1, by omega⟩
        rw [hj, ← Nat.add_assoc]; exact submapCount_succ (by omega)
    have ih' := ih fun i hi => hf i (by rw [hc1]; rw [hc0] at hi; split at hi <;> omega)
    rw [List.range_succ, List.flatMap_append, List.filter_append, reps_append, ih', Option.bind_some]
    simp only [List.flatMap_cons, List.flatMap_nil, List.append_nil]
    have hq : j / S.n 0 = q := by
      rw [hj, Nat.add_comm, Nat.add_mul_div_right _ _ hn, Nat.div_eq_of_lt hr]; omega
    have hlen : (middles (S.n 0) (min (submapCount (S.n 0) j) m)).length = min (submapCount (S.n 0) j) m - 1 := by simp [middles]
    have hfq := hf q (by omega)
    unfold Setup.links windowOf
    rw [hc1]
    by_cases hlt : j < S.n 0
    · have hq0 : q = 0 := by rw [← hq]; exact Nat.div_eq_of_lt hlt
      subst hq0
      rw [if_pos hlt]
      have hm1 : min (submapCount (S.n 0) j) m - 1 = min (0 + 1) m - 1 := by rw [hc0]; split <;> omega
      have hmid : middles (S.n 0) (min (submapCount (S.n 0) j) m) = middles (S.n 0) (min (0 + 1) m) := by unfold middles; rw [hm1]
      rw [hmid]
      by_cases h0 : f (0, ((0 : Nat) : Int)) = true
      · simp only [List.map_cons, List.map_nil]
        rw [List.filter_cons_of_pos (by exact h0), List.filter_nil]
        simp only [reps, and_self, if_true]
        rw [if_pos (by simp)]
      · simp only [List.map_cons, List.map_nil]
        rw [List.filter_cons_of_neg (by exact h0), List.filter_nil]
        rfl
    · rw [if_neg hlt, hq]
      have hq1 : 1 ≤ q := by rw [← hq]; exact (Nat.one_le_div_iff hn).2 (by omega)
      have hfp := hf (q - 1) (by omega)
      simp only [List.map_cons, List.map_nil]
      -- the submap before
      have step1 : ∀ l, reps (middles (S.n 0) (min (submapCount (S.n 0) j) m))
          (List.filter (fun p : Id × Id => f p.1) ((((0 : Int), ((q - 1 : Nat) : Int)), ((0 : Int), (j : Int))) :: l)) =
          reps (middles (S.n 0) (min (submapCount (S.n 0) j) m)) (List.filter (fun p : Id × Id => f p.1) l) := by
        intro l
        by_cases h1 : f (0, ((q - 1 : Nat) : Int)) = true
        · rw [List.filter_cons_of_pos (by exact h1)]
          simp only [reps, and_self, if_true]
          rw [if_pos]
          rw [hlen]
          have := hfp.1 h1
          have h2 : q ≤ submapCount (S.n 0) j := by rw [hc0]; split <;> omega
          omega
        · rw [List.filter_cons_of_neg (by exact h1)]
      rw [step1]
      by_cases h1 : f (0, (q : Int)) = true
      · have hqm := hfq.1 h1
        rw [List.filter_cons_of_pos (by exact h1), List.filter_nil]
        simp only [reps, and_self, if_true]
        rw [hlen]
        by_cases hr0 : r = 0
        · have hs : submapCount (S.n 0) j = q := by rw [hc0, if_pos hr0]
          rw [hs]
          rw [if_neg (by omega), if_pos (by omega)]
          rw [show min q m = q by omega, show min (q + 1) m = q + 1 by omega]
          unfold middles
          rw [show q + 1 - 1 = (q - 1) + 1 by omega, List.range_succ, List.map_append]
          simp only [List.map_cons, List.map_nil]
          rw [show q - 1 + 1 = q by omega, show j = q * S.n 0 by omega]
        · have hs : submapCount (S.n 0) j = q + 1 := by rw [hc0, if_neg hr0]
          rw [hs, if_pos (by omega)]
      · rw [List.filter_cons_of_neg (by exact h1), List.filter_nil]
        simp only [reps]
        have : ¬ q < m := fun h => h1 (hfq.2 h)
        have hs : min (submapCount (S.n 0) j) m = m := by rw [hc0]; split <;> omega
        rw [hs, show min (q + 1) m = m by omega]

/-! ### Executions with one trajectory -/

variable {S : Setup} {as : List (Act Rigid3)} {seen : Seen} {s : State Rigid3} {w : World} {unfinished : Bool}

/-- Nodes were added to trajectory 0 and to no other. -/
structure Single (as : List (Act Rigid3)) : Prop where
  some : 0 < adds as 0
  only : ∀ t, t ≠ 0 → adds as t = 0

/-- Local SLAM has inserted `d` range data into the submaps of trajectory 0: submap `i` is finished with number `(i + 2) * n`. -/
def Grown (S : Setup) (w : World) (d : Nat) : Prop := ∀ i : Nat, w.finished (0, (i : Int)) = true ↔ (i + 2) * S.n 0 ≤ d

/-- How many submaps are written. -/
def written (S : Setup) (unfinished : Bool) (a d : Nat) : Nat :=
  if unfinished then (a + S.n 0 - 1) / S.n 0 else min ((a + S.n 0 - 1) / S.n 0) (d / S.n 0 - 1)

theorem keeps_iff {d : Nat} (hw : Grown S w d) (a : Nat) {i : Nat} (hi : i < submapCount (S.n 0) a) :
    w.keeps unfinished (0, (i : Int)) = true ↔ i < written S unfinished a d := by
  have hn := S.pos 0
  unfold World.keeps written
  unfold submapCount at hi
  cases unfinished with
  | true => simp [hi]
  | false =>
    simp only [Bool.false_or, Bool.false_eq_true, if_false]
    rw [hw i, ← Nat.le_div_iff_mul_le hn]
    omega

theorem intra_single (hs : Single as) {c : Int → Nat} {fin : Int → Bool} (hi : Inv S (adds as) (posted as) seen s c fin) :
    ((s.constraints.filter fun x => x.intra).map fun x => (x.submap, x.node)) = (List.range (c 0)).flatMap (S.links 0) := by
  rw [← hi.intra 0]
  unfold intraOf
  congr 1
  apply List.filter_congr
  intro x hx
  cases hin : x.intra with
  | false => rfl
  | true =>
    by_cases h0 : x.submap.1 = 0
    · simp [h0]
    · exfalso
      have h1 := hi.le x.submap.1
      rw [hs.only _ h0] at h1
      have h2 : (x.submap, x.node) ∈ intraOf s x.submap.1 := by
        unfold intraOf
        exact List.mem_map.2 ⟨x, List.mem_filter.2 ⟨hx, by simp [hin]⟩, rfl⟩
      rw [hi.intra, show c x.submap.1 = 0 by omega] at h2
      simp at h2

theorem filter_pairs (cs : List (PoseGraph.Constraint Rigid3)) (f : Id → Bool) :
    (((cs.filter fun c => f c.submap).filter fun c => c.intra).map fun c => (c.submap, c.node)) =
      (((cs.filter fun c => c.intra).map fun c => (c.submap, c.node))).filter fun p => f p.1 := by
  induction cs with
  | nil => rfl
  | cons c cs ih =>
    cases h1 : f c.submap <;> cases h2 : c.intra <;> simp_all

theorem representatives_inv (hs : Single as) {c : Int → Nat} {fin : Int → Bool} (hi : Inv S (adds as) (posted as) seen s c fin) {d : Nat} (hw : Grown S w d) :
    representatives [] (toProto w unfinished s).constraints = some (middles (S.n 0) (min (submapCount (S.n 0) (c 0)) (written S unfinished (adds as 0) d))) := by
  unfold toProto
  simp only
  rw [representatives_eq, filter_pairs, intra_single hs hi]
  refine reps_links (w.keeps unfinished) fun i hlt => keeps_iff hw _ ?_
  rw [lt_submapCount (S.pos 0)] at hlt ⊢
  exact Nat.lt_of_lt_of_le hlt (hi.le 0)

/-- **Representatives are in the middle of their submaps.**  Submap `k` has the nodes from `k * n` to `(k + 2) * n - 1`, and node `(k + 1) * n` represents it.
The last submap that is written has no representative. -/
theorem representatives_of_map (h : OExec S as seen s) (hq : s.queue = []) (hf : s.inflight = []) (hs : Single as) {d : Nat} (hw : Grown S w d) :
    representatives [] (toProto w unfinished s).constraints =
      some ((List.range (written S unfinished (adds as 0) d - 1)).map fun k : Nat => (((k + 1) * S.n 0 : Nat) : Int)) := by
  obtain ⟨c, fin, hi⟩ := h.inv
  rw [representatives_inv hs hi hw, (hi.settled hq hf 0).1]
  unfold middles
  rw [Nat.min_eq_right]
  unfold written submapCount
  split <;> omega

/-! ### Trajectories -/

theorem addNew_head (l : List Int) : ∀ (t : Int) (acc : List Int), (addNew (t :: acc) l)[0]? = some t := by
  induction l with
  | nil => intro t acc; rfl
  | cons u l ih =>
    intro t acc
    simp only [addNew]
    split
    · exact ih t acc
    · rw [List.cons_append]; exact ih t _

theorem trajectoriesOf_mem {D : Type} {m : Map D} {f : Int → List D} (hm : Dense m f) {t : Int} (h : t ∈ trajectoriesOf m) : f t ≠ [] := by
  unfold trajectoriesOf at h
  obtain ⟨e, h1, rfl⟩ := List.mem_map.1 h
  intro h2
  have h3 := hm e.1
  rw [h2] at h3
  exact SMap.get?_eq_none.1 h3 e (List.mem_filter.1 h1).1 rfl

theorem mem_trajectoriesOf {D : Type} {m : Map D} {f : Int → List D} (hm : Dense m f) {t : Int} (h : f t ≠ []) : t ∈ trajectoriesOf m := by
  unfold trajectoriesOf
  cases hf : f t with
  | nil => exact absurd hf h
  | cons x l =>
    have h1 := hm t
    rw [hf] at h1
    exact List.mem_map.2 ⟨_, List.mem_filter.2 ⟨SMap.mem_of_get? h1, rfl⟩, rfl⟩

/-- The first trajectory of the message: all nodes and the first submaps of trajectory 0. -/
theorem first_trajectory (hs : Single as) {c : Int → Nat} {fin : Int → Bool} (hi : Inv S (adds as) (posted as) seen s c fin) {d : Nat} (hw : Grown S w d) :
    (toProto w unfinished s).trajectories[0]? = some ⟨(List.range (adds as 0)).map fun j : Nat => w.node (0, (j : Int)),
      (List.range (written S unfinished (adds as 0) d)).map fun k : Nat => w.submapPose (0, (k : Int))⟩ := by
  have hall : ∀ t ∈ trajectoriesOf s.submaps ++ trajectoriesOf s.nodes, t = 0 := by
    intro t ht
    by_contra hne
    rcases List.mem_append.1 ht with h1 | h1
    · have h2 := trajectoriesOf_mem hi.submaps h1
      have h3 : (S.subs t (adds as t) (c t) (c t) (fin t)).length = 0 := by
        rw [subs_length, hs.only t hne]
        have := submapCount_zero (q := 0) (S.pos t)
        simpa using this
      exact h2 (List.length_eq_zero_iff.1 h3)
    · have h2 := trajectoriesOf_mem hi.nodes h1
      rw [hs.only t hne] at h2
      exact h2 rfl
  have hmem : (0 : Int) ∈ trajectoriesOf s.nodes := mem_trajectoriesOf hi.nodes (by
    have := hs.some
    intro h1
    have h2 := congrArg List.length h1
    simp at h2
    omega)
  have hhead : (addNew [] (trajectoriesOf s.submaps ++ trajectoriesOf s.nodes))[0]? = some 0 := by
    cases hL : trajectoriesOf s.submaps ++ trajectoriesOf s.nodes with
    | nil =>
      rw [List.append_eq_nil_iff] at hL
      rw [hL.2] at hmem
      cases hmem
    | cons t l =>
      rw [hL] at hall
      simp only [addNew, List.not_mem_nil, if_false, List.nil_append]
      rw [addNew_head, hall t (by simp)]
  unfold toProto
  simp only [List.getElem?_map, hhead, Option.map_some]
  congr 2
  · rw [idsOf_dense hi.nodes, List.length_replicate, List.map_map]; rfl
  · rw [idsOf_dense hi.submaps, subs_length]
    have hle : written S unfinished (adds as 0) d ≤ submapCount (S.n 0) (adds as 0) := by
      unfold written submapCount
      split <;> omega
    obtain ⟨e, he⟩ := Nat.exists_eq_add_of_le hle
    have hk : ∀ i, i < submapCount (S.n 0) (adds as 0) → (w.keeps unfinished (0, (i : Int)) = true ↔ i < written S unfinished (adds as 0) d) :=
      fun i h => keeps_iff hw _ h
    rw [he] at hk ⊢
    generalize written S unfinished (adds as 0) d = m at hk
    rw [List.range_add, List.map_append, List.filter_append, List.filter_eq_self.2, (List.filter_eq_nil_iff (l := List.map _ (List.map _ _))).2]
    · rw [List.append_nil, List.map_map]; rfl
    · intro p hp
      rw [List.map_map, List.mem_map] at hp
      obtain ⟨i, h1, rfl⟩ := hp
      rw [List.mem_range] at h1
      have := (hk (m + i) (by omega)).not.2 (by omega)
      exact this
    · intro p hp
      obtain ⟨i, h1, rfl⟩ := List.mem_map.1 hp
      rw [List.mem_range] at h1
      exact (hk i (by omega)).2 h1

/-- Rotations are unit quaternions. -/
structure ProperWorld (w : World) (s : State Rigid3) : Prop where
  node : ∀ id, (w.node id).pose.Proper
  submap : ∀ id, (w.submapPose id).Proper
  constraint : ∀ c ∈ s.constraints, c.pose.Proper

theorem properGraph (hp : ProperWorld w s) : GroundTruth.ProperGraph (toProto w unfinished s) := by
  constructor
  · intro t ht
    unfold toProto at ht
    obtain ⟨u, -, rfl⟩ := List.mem_map.1 ht
    constructor
    · intro x hx
      obtain ⟨id, -, rfl⟩ := List.mem_map.1 hx
      exact hp.node id
    · intro x hx
      obtain ⟨id, -, rfl⟩ := List.mem_map.1 hx
      exact hp.submap id
  · intro c hc
    unfold toProto at hc
    obtain ⟨x, h1, rfl⟩ := List.mem_map.1 hc
    exact hp.constraint x (List.mem_filter.1 h1).1

/-- Where the constraints of the message come from. -/
theorem constraint_ids (h : OExec S as seen s) (hs : Single as) {c : Int → Nat} {fin : Int → Bool} (hi : Inv S (adds as) (posted as) seen s c fin)
    {x : PoseGraph.Constraint Rigid3} (hx : x ∈ s.constraints) :
    ∃ k j : Nat, x.submap = (0, (k : Int)) ∧ x.node = (0, (j : Int)) ∧ k < submapCount (S.n 0) (adds as 0) ∧ j < adds as 0 := by
  obtain ⟨⟨sm, h1, -⟩, h0⟩ := (exec_integrity h.exec Integrity.init).refs x hx
  obtain ⟨nd, h2⟩ := Option.isSome_iff_exists.1 h0
  clear h0
  obtain ⟨⟨st, si⟩, ⟨nt, ni⟩, pose, intra⟩ := x
  dsimp only at h1 h2 ⊢
  obtain ⟨k, rfl, h3⟩ := hi.submaps.at_some h1
  obtain ⟨j, rfl, h4⟩ := hi.nodes.at_some h2
  rw [subs_get] at h3
  rw [replicate_get] at h4
  have h5 : k * S.n st < adds as st := by by_contra h6; rw [if_neg h6] at h3; cases h3
  have h6 : j < adds as nt := by by_contra h7; rw [if_neg h7] at h4; cases h4
  have h7 : st = 0 := by by_contra h8; rw [hs.only _ h8] at h5; omega
  have h8 : nt = 0 := by by_contra h9; rw [hs.only _ h9] at h6; omega
  subst h7 h8
  exact ⟨k, j, rfl, rfl, (lt_submapCount (S.pos 0)).2 h5, h6⟩

/-- **Ground truth can be generated from every map of one trajectory**, whenever it is saved and with or without unfinished submaps. -/
theorem map_generates (h : OExec S as seen s) (hs : Single as) {d : Nat} (hw : Grown S w d) (hp : ProperWorld w s) (minCovered meters radians : ℝ) :
    ∃ rels, generate (toProto w unfinished s) minCovered meters radians = some rels := by
  obtain ⟨c, fin, hi⟩ := h.inv
  have hr := representatives_inv (unfinished := unfinished) hs hi hw
  obtain ⟨h1, h2⟩ := (GroundTruth.representatives_iff _ _).1 hr
  have hn := S.pos 0
  refine (GroundTruth.generate_isSome (properGraph hp) _ _ _).2 ⟨_, _, first_trajectory hs hi hw, ?_, h1, h2, ?_⟩
  · intro h3
    have h4 := congrArg List.length h3
    have := hs.some
    simp at h4
    omega
  · intro y hy
    unfold toProto at hy
    obtain ⟨x, hx, rfl⟩ := List.mem_map.1 hy
    obtain ⟨hx, hkeep⟩ := List.mem_filter.1 hx
    obtain ⟨k, j, e1, e2, hk, hj⟩ := constraint_ids h hs hi hx
    rw [e1] at hkeep
    have hk' := (keeps_iff hw _ hk).1 hkeep
    unfold GroundTruth.Usable
    simp only [constraintProto, e1, e2, true_and]
    by_cases hin : x.intra = true
    · exact Or.inl hin
    · refine Or.inr ?_
      by_cases hlen : k < (middles (S.n 0) (min (submapCount (S.n 0) (c 0)) (written S unfinished (adds as 0) d))).length
      · refine Or.inr ⟨k, (k + 1) * S.n 0, j, rfl, ?_, rfl, ?_, by simpa using hj, fun _ => by simpa using hk'⟩
        · unfold middles at hlen ⊢
          rw [List.length_map, List.length_range] at hlen
          rw [List.getElem?_map, List.getElem?_range hlen]; rfl
        · unfold middles at hlen
          rw [List.length_map, List.length_range] at hlen
          rw [List.length_map, List.length_range]
          exact Nat.lt_of_lt_of_le ((lt_submapCount hn).1 (show k + 1 < submapCount (S.n 0) (c 0) by omega)) (hi.le 0)
      · exact Or.inl (by omega)

/-- **What the relations are about**: each comes from a loop closure of node `j` with submap `k`; it leads from node `(k + 1) * n` to node `j`, to where the
submap and the loop closure put it.  The last submap that is written has no relations. -/
theorem relations_of_map (h : OExec S as seen s) (hq : s.queue = []) (hf : s.inflight = []) (hs : Single as) {d : Nat} (hw : Grown S w d) (hp : ProperWorld w s)
    {minCovered meters radians : ℝ} {rels : List GroundTruth.Relation} (hg : generate (toProto w unfinished s) minCovered meters radians = some rels) :
    ∀ r ∈ rels, ∃ x ∈ s.constraints, x.intra = false ∧ ∃ k j : Nat, x.submap = (0, (k : Int)) ∧ x.node = (0, (j : Int)) ∧
      k + 1 < written S unfinished (adds as 0) d ∧ r.time1 = (w.node (0, (((k + 1) * S.n 0 : Nat) : Int))).time ∧ r.time2 = (w.node (0, (j : Int))).time ∧
      (w.node (0, (((k + 1) * S.n 0 : Nat) : Int))).pose.mul r.expected = (w.submapPose (0, (k : Int))).mul x.pose := by
  obtain ⟨c, fin, hi⟩ := h.inv
  have hr := representatives_of_map (unfinished := unfinished) h hq hf hs hw
  obtain ⟨t, h1, covered, h2, reps, h3, h4⟩ := (GroundTruth.generate_some _ _ _ _ _).1 hg
  have hpg := properGraph (unfinished := unfinished) hp
  have hF := (GroundTruth.relations_spec (hpg.trajectories _ (List.mem_of_getElem? h1)) h2 reps minCovered meters radians _ hpg.constraints).2 _ h4
  rw [hr] at h3
  obtain rfl := Option.some.inj h3
  rw [first_trajectory hs hi hw] at h1
  obtain rfl := Option.some.inj h1
  intro r hrm
  obtain ⟨y, hy, h0, -, -, k, i, j, first, second, submap, e1, e2, e3, e4, e5, e6, -, -, -, t1, t2, -, -, hm⟩ := GroundTruth.forall₂_mem hF hrm
  have hy' : y ∈ (toProto w unfinished s).constraints := by
    unfold GroundTruth.chosen at hy
    exact (List.mem_filter.1 hy).1
  unfold toProto at hy'
  obtain ⟨x, hx, rfl⟩ := List.mem_map.1 hy'
  obtain ⟨hx, -⟩ := List.mem_filter.1 hx
  obtain ⟨k', j', i1, i2, -, -⟩ := constraint_ids h hs hi hx
  simp only [constraintProto, i1, i2] at e1 e3 h0 hm
  obtain rfl : k' = k := by omega
  obtain rfl : j' = j := by omega
  rw [List.getElem?_map, Option.map_eq_some_iff] at e2 e4 e5 e6
  obtain ⟨_, a1, a2⟩ := e2
  obtain ⟨_, b1, rfl⟩ := e4
  obtain ⟨_, c1, rfl⟩ := e5
  obtain ⟨_, d1, rfl⟩ := e6
  obtain ⟨a3, rfl⟩ := List.getElem?_eq_some_iff.1 a1
  obtain ⟨b3, rfl⟩ := List.getElem?_eq_some_iff.1 b1
  obtain ⟨c3, rfl⟩ := List.getElem?_eq_some_iff.1 c1
  obtain ⟨d3, rfl⟩ := List.getElem?_eq_some_iff.1 d1
  have a4 := a3
  rw [List.length_range] at a4
  simp only [List.getElem_range] at *
  obtain rfl : (k' + 1) * S.n 0 = i := by exact_mod_cast a2
  exact ⟨x, hx, h0, k', j', i1, i2, by omega, t1, t2, hm⟩

/-! ### Where it aborts -/

/-- **A second trajectory is fatal**: as soon as a node of another trajectory was processed, a map with unfinished submaps yields no ground truth. -/
theorem second_trajectory_aborts (h : OExec S as seen s) (hq : s.queue = []) (hf : s.inflight = []) {t : Int} (ht : t ≠ 0) (ha : 0 < adds as t)
    (minCovered meters radians : ℝ) : generate (toProto w true s) minCovered meters radians = none := by
  obtain ⟨c, fin, hi⟩ := h.inv
  cases hg : generate (toProto w true s) minCovered meters radians with
  | none => rfl
  | some rels =>
    exfalso
    obtain ⟨-, -, covered, -, v, h3, -⟩ := (GroundTruth.generate_some _ _ _ _ _).1 hg
    have h4 := ((GroundTruth.representatives_iff _ _).1 h3).1
    have h5 : (((t, ((0 : Nat) : Int)), (t, ((0 : Nat) : Int))) : Id × Id) ∈ intraOf s t := by
      rw [hi.intra, (hi.settled hq hf t).1]
      have := S.pos t
      exact List.mem_flatMap.2 ⟨0, List.mem_range.2 ha, links_mem.2 ⟨0, rfl, rfl, by omega, by omega⟩⟩
    unfold intraOf at h5
    obtain ⟨x, h6, h7⟩ := List.mem_map.1 h5
    obtain ⟨h6, h8⟩ := List.mem_filter.1 h6
    simp only [Bool.and_eq_true, decide_eq_true_eq] at h8
    have h9 := h4 (constraintProto x) (List.mem_map.2 ⟨x, List.mem_filter.2 ⟨h6, rfl⟩, rfl⟩) h8.1
    exact ht (h8.2.symm.trans h9.1)

/-- **Trimming is fatal**: if the first constraint of local SLAM that is left is to submap 2 or a later one, there is no ground truth. -/
theorem trimmed_aborts {a b : List (PoseGraph.Constraint Rigid3)} {x : PoseGraph.Constraint Rigid3} (hc : s.constraints = a ++ x :: b)
    (ha : ∀ y ∈ a, y.intra = false) (hx : x.intra = true) (h2 : 2 ≤ x.submap.2) (hk : w.keeps unfinished x.submap = true) (minCovered meters radians : ℝ) :
    generate (toProto w unfinished s) minCovered meters radians = none := by
  cases hg : generate (toProto w unfinished s) minCovered meters radians with
  | none => rfl
  | some rels =>
    exfalso
    obtain ⟨-, -, covered, -, v, h3, -⟩ := (GroundTruth.generate_some _ _ _ _ _).1 hg
    have hn : ∀ y ∈ a, ¬ y.intra = true := fun y hy => by simp [ha y hy]
    unfold toProto at h3
    simp only at h3
    rw [representatives_eq, filter_pairs, hc, List.filter_append, List.filter_eq_nil_iff.2 hn, List.nil_append,
      List.filter_cons_of_pos (by exact hx), List.map_cons, List.filter_cons_of_pos (by exact hk)] at h3
    simp only [reps, List.length_nil] at h3
    split at h3
    · rw [if_neg (by simp; omega), if_neg (by simp; omega)] at h3
      cases h3
    · cases h3

/-- **Trimming is fatal, in every execution**: once submap 1 of trajectory 0 is gone, there is no ground truth as long as a constraint of local SLAM to a later
submap is written. -/
theorem removed_aborts {acts : List (Act Rigid3)} (h : Exec {} acts s) (h1 : at? s.submaps (0, 1) = none) {x : PoseGraph.Constraint Rigid3} (hm : x ∈ s.constraints)
    (hx : x.intra = true) (h2 : 1 ≤ x.submap.2) (hk : w.keeps unfinished x.submap = true) (minCovered meters radians : ℝ) :
    generate (toProto w unfinished s) minCovered meters radians = none := by
  cases hg : generate (toProto w unfinished s) minCovered meters radians with
  | none => rfl
  | some rels =>
    exfalso
    obtain ⟨-, -, covered, -, v, h3, -⟩ := (GroundTruth.generate_some _ _ _ _ _).1 hg
    obtain ⟨h4, h5⟩ := (GroundTruth.representatives_iff _ _).1 h3
    have h6 := h5.bound (constraintProto x) (List.mem_map.2 ⟨x, List.mem_filter.2 ⟨hm, hk⟩, rfl⟩) hx
    simp only [constraintProto] at h6
    obtain ⟨a, c, b, e1, e2, e3, -, -⟩ := h5.first 0 (by simp) (by omega)
    have h7 : c ∈ (toProto w unfinished s).constraints := by rw [e1]; simp
    have h8 := (h4 c h7 e2).1
    unfold toProto at h7
    obtain ⟨y, h9, rfl⟩ := List.mem_map.1 h7
    obtain ⟨⟨sm, h10, -⟩, -⟩ := (exec_integrity h Integrity.init).refs y (List.mem_filter.1 h9).1
    have h11 : y.submap = (0, 1) := Prod.ext h8 (by simpa [constraintProto] using e3)
    rw [h11, h1] at h10
    cases h10

theorem sorted_index {D : Type} : ∀ {l : List (Int × D)}, SMap.Sorted l → ∀ {b : Int}, (∀ e ∈ l, b ≤ e.1) → ∀ {i : Nat} {e : Int × D}, l[i]? = some e → b + i ≤ e.1 := by
  intro l
  induction l with
  | nil => intro _ b _ i e h; simp at h
  | cons x l ih =>
    intro hs b hb i e h
    cases i with
    | zero =>
      simp only [List.getElem?_cons_zero, Option.some.injEq] at h
      subst h
      simpa using hb x (by simp)
    | succ i =>
      rw [List.getElem?_cons_succ] at h
      have h1 := ih hs.tail (b := x.1 + 1) (fun e he => by have := hs.head e he; omega) h
      have h2 := hb x (by simp)
      push_cast
      omega

/-- If node 0 of a trajectory is gone, all positions are those of later nodes. -/
theorem position_later (hi : Integrity s) {t : Int} (h0 : at? s.nodes (t, 0) = none) {i : Nat} {id : Id} (h : (idsOf s.nodes t)[i]? = some id) :
    id.1 = t ∧ (i : Int) < id.2 := by
  unfold idsOf at h
  rw [List.getElem?_map, Option.map_eq_some_iff] at h
  obtain ⟨e, h1, rfl⟩ := h
  refine ⟨rfl, ?_⟩
  cases hg : SMap.get? t s.nodes with
  | none => rw [hg] at h1; simp at h1
  | some tr =>
    rw [hg] at h1
    simp only [Option.elim_some] at h1
    have hm := SMap.mem_of_get? hg
    have hs := hi.wf.nodes.dsorted _ hm
    have hb : ∀ x ∈ tr.data, (1 : Int) ≤ x.1 := by
      intro x hx
      have h2 := hi.wf.nodes.inonneg _ hm x hx
      by_contra h3
      have h4 : x.1 = 0 := by omega
      unfold MapById.at? at h0
      rw [hg] at h0
      simp only [Option.bind_some] at h0
      exact SMap.get?_eq_none.1 h0 x hx h4
    have := sorted_index hs hb h1
    dsimp only
    omega

/-- The first trajectory of the message is trajectory 0 if it has a submap. -/
theorem first_is_zero (hi : Integrity s) {k : Int} (hk : (at? s.submaps (0, k)).isSome) :
    (toProto w unfinished s).trajectories[0]? = some ⟨(idsOf s.nodes 0).map w.node, ((idsOf s.submaps 0).filter fun id => w.keeps unfinished id).map w.submapPose⟩ := by
  have hhead : (addNew [] (trajectoriesOf s.submaps ++ trajectoriesOf s.nodes))[0]? = some 0 := by
    have hwf := hi.wf.submaps
    cases hsm : s.submaps with
    | nil => rw [hsm] at hk; simp [MapById.at?, SMap.get?] at hk
    | cons e m =>
      have he : e.1 = 0 := by
        rw [hsm] at hwf
        by_contra hne
        have h1 := hwf.nonneg e (by simp)
        have h2 : SMap.get? 0 (e :: m) = none := SMap.get?_eq_none.2 fun y hy => by
          rcases List.mem_cons.1 hy with rfl | hy
          · exact hne
          · have := hwf.sorted.head y hy; omega
        unfold MapById.at? at hk
        rw [hsm, h2] at hk
        simp at hk
      have hd : e.2.data ≠ [] := by rw [hsm] at hwf; exact hwf.nonempty e (by simp)
      unfold trajectoriesOf
      rw [List.filter_cons_of_pos (by simpa using hd), List.map_cons, List.cons_append]
      simp only [addNew, List.not_mem_nil, if_false, List.nil_append]
      rw [addNew_head, he]
  unfold toProto
  simp only [List.getElem?_map, hhead, Option.map_some]

/-- **After trimming, relations are about the wrong nodes**: if node 0 is gone and trajectory 0 has a submap left, in every execution each relation of a loop
closure of node `j` is about a later node `i`. -/
theorem relations_shifted {acts : List (Act Rigid3)} (h : Exec {} acts s) (hp : ProperWorld w s) (h0 : at? s.nodes (0, 0) = none) {k : Int} (hk : (at? s.submaps (0, k)).isSome)
    {minCovered meters radians : ℝ} {rels : List GroundTruth.Relation} (hg : generate (toProto w unfinished s) minCovered meters radians = some rels) :
    ∀ r ∈ rels, ∃ x ∈ s.constraints, x.intra = false ∧ ∃ i j : Int, x.node = (0, j) ∧ j < i ∧ (at? s.nodes (0, i)).isSome ∧ r.time2 = (w.node (0, i)).time := by
  have hi := exec_integrity h Integrity.init
  obtain ⟨t, h1, covered, h2, reps, h3, h4⟩ := (GroundTruth.generate_some _ _ _ _ _).1 hg
  have hpg := properGraph (unfinished := unfinished) hp
  have hF := (GroundTruth.relations_spec (hpg.trajectories _ (List.mem_of_getElem? h1)) h2 reps minCovered meters radians _ hpg.constraints).2 _ h4
  rw [first_is_zero hi hk] at h1
  obtain rfl := Option.some.inj h1
  intro r hrm
  obtain ⟨y, hy, hin, -, hz, k, i, j, first, second, submap, e1, e2, e3, e4, e5, e6, -, -, -, t1, t2, -, -, hm⟩ := GroundTruth.forall₂_mem hF hrm
  have hy' : y ∈ (toProto w unfinished s).constraints := by
    unfold GroundTruth.chosen at hy
    exact (List.mem_filter.1 hy).1
  unfold toProto at hy'
  obtain ⟨x, hx, rfl⟩ := List.mem_map.1 hy'
  obtain ⟨hx, -⟩ := List.mem_filter.1 hx
  rw [List.getElem?_map, Option.map_eq_some_iff] at e5
  obtain ⟨id, c1, rfl⟩ := e5
  obtain ⟨p1, p2⟩ := position_later hi h0 c1
  have hat : (at? s.nodes id).isSome := by
    have hmem := List.mem_of_getElem? c1
    unfold idsOf at hmem
    obtain ⟨e, he, rfl⟩ := List.mem_map.1 hmem
    cases hgt : SMap.get? 0 s.nodes with
    | none => rw [hgt] at he; cases he
    | some tr =>
      rw [hgt] at he
      unfold MapById.at?
      rw [hgt]
      simp only [Option.bind_some]
      rw [SMap.get?_of_mem (hi.wf.nodes.dsorted _ (SMap.mem_of_get? hgt)) (show (e.1, e.2) ∈ tr.data from he)]
      rfl
  obtain ⟨id1, id2⟩ := id
  dsimp only at p1 p2
  subst p1
  exact ⟨x, hx, hin, id2, j, Prod.ext hz e3, p2, hat, t2⟩

/-! ### The message is that of the loops of `ToProto` -/

/-- An entry of the message. -/
def entry (F G : Int → List Int) (t : Int) : TrajectoryProto := ⟨t, F t, G t⟩

theorem addNew_append (a b : List Int) : ∀ acc, addNew acc (a ++ b) = addNew (addNew acc a) b := by
  induction a with
  | nil => intro acc; rfl
  | cons t a ih => intro acc; exact ih _

theorem protoTrajectory_map {F G : Int → List Int} {ids : List Int} {t : Int} (hF : t ∉ ids → F t = []) (hG : t ∉ ids → G t = []) :
    protoTrajectory (ids.map (entry F G)) t = (addNew ids [t]).map (entry F G) := by
  have hid : (ids.map (entry F G)).map (·.id) = ids := by
    rw [List.map_map]; exact (List.map_congr_left fun x _ => rfl).trans (List.map_id ids)
  unfold protoTrajectory
  rw [hid]
  simp only [addNew]
  split
  · rfl
  · rename_i hn
    rw [List.map_append, List.map_singleton]
    simp only [entry, hF hn, hG hn]

theorem mem_addNew_one {ids : List Int} {t u : Int} : u ∈ addNew ids [t] ↔ u ∈ ids ∨ u = t := by
  simp only [addNew]
  split
  · rename_i h
    exact ⟨Or.inl, fun h' => h'.elim id fun e => e ▸ h⟩
  · simp

theorem protoSubmaps_map {inc : Bool} {fin : Nat → Bool} {G : Int → List Int} : ∀ (es : List (Id × Submap)) (F : Int → List Int) (ids : List Int) (u : List Id),
    (∀ t, t ∉ ids → F t = []) → (∀ t, t ∉ ids → G t = []) →
    (protoSubmaps inc fin es (ids.map (entry F G)) u).1 = (addNew ids (es.map (·.1.1))).map
      (entry (fun t => F t ++ ((es.filter fun e => decide (e.1.1 = t) && (inc || fin e.2.ptr)).map (·.1.2))) G) := by
  intro es
  induction es with
  | nil => intro F ids u _ _; simp [protoSubmaps, addNew]
  | cons e es ih =>
    intro F ids u hF hG
    have hG' : ∀ t, t ∉ addNew ids [e.1.1] → G t = [] := fun t ht => hG t fun h => ht (mem_addNew_one.2 (Or.inl h))
    have hids : addNew ids ((e :: es).map (·.1.1)) = addNew (addNew ids [e.1.1]) (es.map (·.1.1)) := rfl
    simp only [protoSubmaps]
    rw [hids]
    split
    · rename_i hc
      rw [protoTrajectory_map (hF _) (hG _), ih F _ _ (fun t ht => hF t fun h => ht (mem_addNew_one.2 (Or.inl h))) hG']
      apply List.map_congr_left
      intro t _
      simp [entry, hc.1, hc.2]
    · rename_i hc
      have hk : (inc || fin e.2.ptr) = true := by
        cases inc <;> cases hf : fin e.2.ptr <;> simp_all
      unfold protoModify
      rw [protoTrajectory_map (hF _) (hG _), List.map_map]
      have hm : (addNew ids [e.1.1]).map ((fun x : TrajectoryProto => if x.id = e.1.1 then { x with submaps := x.submaps ++ [e.1.2] } else x) ∘ entry F G) =
          (addNew ids [e.1.1]).map (entry (fun t => if t = e.1.1 then F t ++ [e.1.2] else F t) G) := by
        apply List.map_congr_left
        intro t _
        by_cases ht : t = e.1.1 <;> simp [Function.comp, entry, ht]
      rw [hm, ih]
      · apply List.map_congr_left
        intro t _
        simp only [entry]
        by_cases ht : t = e.1.1
        · subst ht
          simp [hk]
        · have ht' : ¬ e.1.1 = t := fun h => ht h.symm
          simp [ht, ht']
      · intro t ht
        rw [mem_addNew_one, not_or] at ht
        rw [if_neg ht.2]
        exact hF t ht.1
      · exact hG'

theorem protoNodes_map {F : Int → List Int} : ∀ (es : List (Id × Unit)) (G : Int → List Int) (ids : List Int),
    (∀ t, t ∉ ids → F t = []) → (∀ t, t ∉ ids → G t = []) →
    protoNodes es (ids.map (entry F G)) = (addNew ids (es.map (·.1.1))).map
      (entry F (fun t => G t ++ ((es.filter fun e => decide (e.1.1 = t)).map (·.1.2)))) := by
  intro es
  induction es with
  | nil => intro G ids _ _; simp [protoNodes, addNew]
  | cons e es ih =>
    intro G ids hF hG
    have hF' : ∀ t, t ∉ addNew ids [e.1.1] → F t = [] := fun t ht => hF t fun h => ht (mem_addNew_one.2 (Or.inl h))
    have hids : addNew ids ((e :: es).map (·.1.1)) = addNew (addNew ids [e.1.1]) (es.map (·.1.1)) := rfl
    simp only [protoNodes]
    unfold protoModify
    rw [hids, protoTrajectory_map (hF _) (hG _), List.map_map]
    have hm : (addNew ids [e.1.1]).map ((fun x : TrajectoryProto => if x.id = e.1.1 then { x with nodes := x.nodes ++ [e.1.2] } else x) ∘ entry F G) =
        (addNew ids [e.1.1]).map (entry F (fun t => if t = e.1.1 then G t ++ [e.1.2] else G t)) := by
      apply List.map_congr_left
      intro t _
      by_cases ht : t = e.1.1 <;> simp [Function.comp, entry, ht]
    rw [hm, ih]
    · apply List.map_congr_left
      intro t _
      simp only [entry]
      by_cases ht : t = e.1.1
      · subst ht
        simp
      · have ht' : ¬ e.1.1 = t := fun h => ht h.symm
        simp [ht, ht']
    · exact hF'
    · intro t ht
      rw [mem_addNew_one, not_or] at ht
      rw [if_neg ht.2]
      exact hG t ht.1

theorem addNew_seen {t : Int} (l : List Int) : ∀ {acc : List Int}, t ∈ acc → (∀ x ∈ l, x = t) → addNew acc l = acc := by
  induction l with
  | nil => intro acc _ _; rfl
  | cons x l ih =>
    intro acc h hl
    obtain rfl := hl x (by simp)
    simp only [addNew, if_pos h]
    exact ih h fun y hy => hl y (by simp [hy])

theorem addNew_flat {D : Type} (m : Map D) : ∀ acc, addNew acc ((flat m).map (·.1.1)) = addNew acc (trajectoriesOf m) := by
  induction m with
  | nil => intro acc; rfl
  | cons e m ih =>
    intro acc
    rw [flat_cons, List.map_append, addNew_append, ih, List.map_map]
    unfold trajectoriesOf
    cases hd : e.2.data with
    | nil => simp [hd, addNew]
    | cons x l =>
      rw [List.filter_cons_of_pos (by simp [hd]), List.map_cons]
      simp only [List.map_cons, addNew]
      congr 1
      refine addNew_seen (t := e.1) _ ?_ ?_
      · by_cases ha : e.1 ∈ acc <;> simp [Function.comp, tag, ha]
      · intro y hy
        obtain ⟨z, -, rfl⟩ := List.mem_map.1 hy
        rfl

theorem flat_filter {D : Type} {m : Map D} (hm : SMap.Sorted m) (t : Int) :
    (flat m).filter (fun e => decide (e.1.1 = t)) = ((SMap.get? t m).elim [] (·.data)).map (tag t) := by
  induction m with
  | nil => rfl
  | cons e m ih =>
    rw [flat_cons, List.filter_append, ih hm.tail]
    obtain ⟨k, tr⟩ := e
    simp only [SMap.get?]
    by_cases hk : k = t
    · subst hk
      have h0 : SMap.get? k m = none := SMap.get?_eq_none.2 fun x hx => by have := hm.head x hx; dsimp only at this; omega
      rw [h0, if_pos rfl, List.filter_eq_self.2]
      · simp
      · intro x hx
        obtain ⟨y, -, rfl⟩ := List.mem_map.1 hx
        simp [tag]
    · rw [if_neg hk, List.filter_eq_nil_iff.2, List.nil_append]
      intro x hx
      obtain ⟨y, -, rfl⟩ := List.mem_map.1 hx
      simp [tag, hk]

/-- **The message is what the loops of `ToProto` write** (the model of C44, which has ids only), with poses and times put in. -/
theorem toProto_loops (hi : Integrity s) {inserted : Nat → Bool} (hfin : ∀ id sm, at? s.submaps id = some sm → inserted sm.ptr = w.finished id) :
    (toProto w unfinished s).trajectories = (PoseGraph.toProto unfinished inserted s s s).trajectories.map
      (fun e => ⟨e.nodes.map fun i => w.node (e.id, i), e.submaps.map fun i => w.submapPose (e.id, i)⟩) ∧
    (toProto w unfinished s).constraints = (PoseGraph.toProto unfinished inserted s s s).constraints.map constraintProto := by
  constructor
  · unfold PoseGraph.toProto toProto
    simp only
    have h1 := protoSubmaps_map (inc := unfinished) (fin := inserted) (G := fun _ => []) (flat s.submaps) (fun _ => []) [] [] (fun _ _ => rfl) (fun _ _ => rfl)
    rw [List.map_nil] at h1
    have hnot : ∀ (l acc : List Int) (t : Int), t ∉ addNew acc l → t ∉ l := by
      intro l
      induction l with
      | nil => intro acc t _ h; cases h
      | cons x l ih =>
        have keep : ∀ (l acc : List Int) (t : Int), t ∈ acc → t ∈ addNew acc l := by
          intro l
          induction l with
          | nil => intro acc t h; exact h
          | cons y l ih' =>
            intro acc t h
            simp only [addNew]
            refine ih' _ _ ?_
            split
            · exact h
            · simp [h]
        intro acc t h hm
        simp only [addNew] at h
        rcases List.mem_cons.1 hm with rfl | hm
        · refine h (keep _ _ _ ?_)
          split
          · assumption
          · simp
        · exact ih _ _ h hm
    rw [h1, protoNodes_map]
    · rw [List.map_map, addNew_flat, addNew_flat, ← addNew_append]
      apply List.map_congr_left
      intro t _
      simp only [Function.comp, entry, List.nil_append]
      congr 1
      · rw [flat_filter hi.wf.nodes.sorted]
        unfold idsOf
        simp only [List.map_map]
        rfl
      · have h2 : ((flat s.submaps).filter fun e => decide (e.1.1 = t) && (unfinished || inserted e.2.ptr)) =
            ((flat s.submaps).filter fun e => decide (e.1.1 = t)).filter fun e => w.keeps unfinished e.1 := by
          rw [List.filter_filter]
          apply List.filter_congr
          intro e he
          unfold World.keeps
          rw [hfin e.1 e.2 ((mem_flat_iff hi.wf.submaps).1 he), Bool.and_comm]
        rw [h2, flat_filter hi.wf.submaps.sorted]
        unfold idsOf
        rw [List.filter_map, List.filter_map, List.map_map, List.map_map, List.map_map]
        rfl
    · intro t ht
      have h2 := hnot _ _ _ ht
      simp only [List.nil_append, List.map_eq_nil_iff, List.filter_eq_nil_iff]
      intro e he h3
      simp only [Bool.and_eq_true, decide_eq_true_eq] at h3
      exact h2 (List.mem_map.2 ⟨e, he, h3.1⟩)
    · intro t _; rfl
  · unfold PoseGraph.toProto toProto
    simp only
    congr 1
    apply List.filter_congr
    intro c hc
    obtain ⟨⟨sm, h1, -⟩, -⟩ := hi.refs c hc
    have h2 := (protoSubmaps_spec (inc := unfinished) (fin := inserted) (es := flat s.submaps) (l := []) (u := []) (by simp [PoseGraph.Unique])).2.2.2 c.submap
    have h3 : c.submap ∈ (protoSubmaps unfinished inserted (flat s.submaps) [] []).2 ↔ unfinished = false ∧ w.finished c.submap = false := by
      rw [h2]
      constructor
      · rintro (h | ⟨sm', h4, h5, h6⟩)
        · cases h
        · rw [mem_flat_iff hi.wf.submaps] at h4
          rw [hfin _ _ h4] at h6
          exact ⟨h5, h6⟩
      · rintro ⟨h5, h6⟩
        exact Or.inr ⟨sm, (mem_flat_iff hi.wf.submaps).2 h1, h5, by rw [hfin _ _ h1]; exact h6⟩
    unfold World.keeps
    cases hu : unfinished with
    | true => simp
    | false =>
      rw [hu] at h3
      cases hw : w.finished c.submap <;> simp [h3, hw]

/-! ### Examples -/

/-- Adding node `k` of trajectory `t` and processing it with `m` searches; the poses of its constraints are the identity. -/
noncomputable def fullNode (t : Int) (k m : Nat) : List (Act Rigid3) :=
  [.addNode t ((windowOf (twos.n t) k).map (twos.ptr t)) (fills (twos.n t) k), .enqueue 0, .run [Rigid3.identity, Rigid3.identity]] ++ List.replicate m (.search .globally) ++ [.endSearch]

/-- Six nodes of trajectory 0. -/
noncomputable def six : List (Act Rigid3) :=
  fullNode 0 0 0 ++ fullNode 0 1 0 ++ fullNode 0 2 0 ++ fullNode 0 3 0 ++ fullNode 0 4 1 ++ fullNode 0 5 3

theorem six_runs : ∃ seen s, OExec twos six seen s ∧ s.queue = [] ∧ s.inflight = [] ∧ s.constraints.map (·.pose) = List.replicate 10 Rigid3.identity := by
  have h : (script twos [] {} {} six).map (fun p => (p.2.queue, p.2.inflight, p.2.constraints.map (·.pose))) = some ([], [], List.replicate 10 Rigid3.identity) := rfl
  obtain ⟨⟨seen, s⟩, h1, h2⟩ := Option.map_eq_some_iff.1 h
  simp only [Prod.mk.injEq] at h2
  exact ⟨seen, s, script_ok (as := []) OExec.nil h1, h2⟩

theorem six_single : Single six := by
  refine ⟨by rw [show adds six 0 = 6 from rfl]; omega, fun t ht => ?_⟩
  have : ¬ (0 : Int) = t := fun h => ht h.symm
  simp [adds, six, fullNode, this]

/-- Poses that do not matter here, and the first two of three submaps finished. -/
def world : World := ⟨fun id => ⟨10 * id.2, Rigid3.identity⟩, fun _ => Rigid3.identity, fun id => decide (id.2 < 2)⟩

theorem world_grown : Grown twos world 6 := by
  intro i
  simp only [world, decide_eq_true_eq, twos]
  omega

/-- There are three submaps, with nodes 0-3, 2-5 and 4-5.  With all of them, nodes 2 and 4 represent the first two; without the unfinished one, the second
has no representative. -/
example : ∃ seen s, OExec twos six seen s ∧ representatives [] (toProto world true s).constraints = some [2, 4] ∧
    representatives [] (toProto world false s).constraints = some [2] := by
  obtain ⟨seen, s, h, hq, hf, -⟩ := six_runs
  have h6 : adds six 0 = 6 := rfl
  refine ⟨seen, s, h, ?_, ?_⟩
  · rw [representatives_of_map h hq hf six_single world_grown, h6, show written twos true 6 6 = 3 by decide]; rfl
  · rw [representatives_of_map h hq hf six_single world_grown, h6, show written twos false 6 6 = 2 by decide]; rfl

theorem identity_proper : Rigid3.identity.Proper := by simp [Rigid3.identity, Rigid3.Proper, Quat.Unit]

/-- Ground truth is generated. -/
example : ∃ seen s, OExec twos six seen s ∧ ∃ rels, generate (toProto world false s) 1 1 1 = some rels := by
  obtain ⟨seen, s, h, hq, hf, hc⟩ := six_runs
  refine ⟨seen, s, h, map_generates h six_single world_grown ⟨fun _ => identity_proper, fun _ => identity_proper, fun c hm => ?_⟩ 1 1 1⟩
  have h1 : c.pose ∈ s.constraints.map (·.pose) := List.mem_map.2 ⟨c, hm, rfl⟩
  rw [hc] at h1
  rw [List.eq_of_mem_replicate h1]
  exact identity_proper

/-- The message is that of the loops, with submap objects 0 and 1 finished. -/
example : ∃ seen s, OExec twos six seen s ∧
    (toProto world false s).constraints = (PoseGraph.toProto false (fun p => decide (p < 2)) s s s).constraints.map constraintProto := by
  obtain ⟨seen, s, h, -⟩ := six_runs
  refine ⟨seen, s, h, (toProto_loops (exec_integrity h.exec Integrity.init) ?_).2⟩
  rintro ⟨t, i⟩ sm hat
  obtain ⟨c, fin, hi⟩ := h.inv
  obtain ⟨k, rfl, hk⟩ := hi.submaps.at_some hat
  rw [subs_get] at hk
  split at hk
  · rename_i hlt
    have ht : t = 0 := by by_contra hne; rw [six_single.only t hne] at hlt; omega
    subst ht
    obtain rfl := Option.some.inj hk
    simp [Setup.sub, twos, world]
  · cases hk

/-- With a node of another trajectory, it is not. -/
example : ∃ seen s, OExec twos (fullNode 0 0 0 ++ fullNode 1 0 0) seen s ∧ generate (toProto world true s) 1 1 1 = none := by
  have h : ∃ p, script twos [] {} {} (fullNode 0 0 0 ++ fullNode 1 0 0) = some p ∧ p.2.queue = [] ∧ p.2.inflight = [] := ⟨_, rfl, rfl, rfl⟩
  obtain ⟨⟨seen, s⟩, h1, h2, h3⟩ := h
  have h4 := script_ok (as := []) OExec.nil h1
  exact ⟨seen, s, h4, second_trajectory_aborts h4 h2 h3 (t := 1) (by omega) (by rw [show adds ([] ++ _) 1 = 1 from rfl]; omega) 1 1 1⟩

/-- Nor if submaps 0 and 1 were trimmed. -/
example : generate (toProto world true { constraints := [⟨(0, 2), (0, 4), Rigid3.identity, true⟩] }) 1 1 1 = none :=
  trimmed_aborts (a := []) rfl (by simp) rfl (le_refl (2 : Int)) rfl 1 1 1

/-- Checks whether a step is possible (no loop closures are found). -/
def can (s : State Rigid3) : Act Rigid3 → Bool
  | .addNode _ ins _ => !ins.isEmpty
  | .post item => item.free
  | .enqueue k => decide (k < s.inflight.length)
  | .run _ => !s.queue.isEmpty && (match s.worker with
    | .idle => true
    | _ => false)
  | .search _ => (match s.worker with
    | .searching (_ :: _) => true
    | _ => false)
  | .endSearch => (match s.worker with
    | .searching [] => true
    | _ => false)
  | .optimize r => r.isEmpty && (match s.worker with
    | .idle => true
    | _ => false)
  | .trim _ => (match s.worker with
    | .optimized _ => true
    | _ => false)
  | _ => false

theorem can_ok {s : State Rigid3} {a : Act Rigid3} (h : can s a = true) : Enabled s a := by
  cases a with
  | addNode t ins nf => simpa [can, Enabled, List.isEmpty_eq_false_iff] using h
  | post item => exact h
  | enqueue k => simpa [can, Enabled] using h
  | run poses =>
    simp only [can, Bool.and_eq_true, Bool.not_eq_true', List.isEmpty_eq_false_iff] at h
    refine ⟨?_, h.1⟩
    have := h.2
    split at this
    · assumption
    · cases this
  | search how =>
    simp only [can] at h
    split at h
    · rename_i p todo hw
      exact ⟨p, todo, hw⟩
    · cases h
  | endSearch =>
    simp only [can] at h
    split at h
    · assumption
    · cases h
  | optimize r =>
    simp only [can, Bool.and_eq_true, List.isEmpty_iff] at h
    obtain ⟨rfl, h⟩ := h
    refine ⟨?_, by simp⟩
    split at h
    · assumption
    · cases h
  | trim c =>
    simp only [can] at h
    split at h
    · rename_i r hw
      exact ⟨r, hw⟩
    · cases h
  | _ => simp [can] at h

/-- Runs steps. -/
def go (s : State Rigid3) : List (Act Rigid3) → Option (State Rigid3)
  | [] => some s
  | a :: l => if can s a then (exec s a).bind fun s' => go s' l else none

theorem go_ok {l : List (Act Rigid3)} : ∀ {as : List (Act Rigid3)} {s s' : State Rigid3}, Exec {} as s → go s l = some s' → Exec {} (as ++ l) s' := by
  induction l with
  | nil =>
    intro as s s' h e
    obtain rfl := Option.some.inj e
    simpa using h
  | cons a l ih =>
    intro as s s' h e
    simp only [go] at e
    split at e
    · rename_i hm
      obtain ⟨s1, e1, e2⟩ := Option.bind_eq_some_iff.1 e
      have := ih (.snoc h (can_ok hm) e1) e2
      rwa [List.append_assoc] at this
    · cases e

/-- Adding node `k` of trajectory 0, with which a submap is started, and processing it with `m` searches. -/
noncomputable def step (k m : Nat) : List (Act Rigid3) :=
  [.addNode 0 (windowOf 1 k) (fills 1 k), .enqueue 0, .run [Rigid3.identity, Rigid3.identity]] ++ List.replicate m (.search .globally) ++ [.endSearch]

/-- A `PureLocalizationTrimmer` for trajectory 0 that keeps two submaps, and three nodes. -/
noncomputable def three : List (Act Rigid3) :=
  [.post (.addTrimmer (.pureLocalization 0 2 false)), .enqueue 0, .run [Rigid3.identity, Rigid3.identity]] ++ step 0 0 ++ step 1 0 ++ step 2 2

/-- With three nodes, submap 0 and node 0 are trimmed. -/
example : ∃ s, Exec {} (three ++ [.optimize [], .trim []]) s ∧ at? s.nodes (0, 0) = none ∧ (at? s.submaps (0, 1)).isSome ∧
    (idsOf s.nodes 0)[0]? = some (0, 1) := by
  have h : (go {} (three ++ [.optimize [], .trim []])).map (fun s => (at? s.nodes (0, 0), (at? s.submaps (0, 1)).isSome, (idsOf s.nodes 0)[0]?)) = some (none, true, some (0, 1)) := rfl
  obtain ⟨s, h1, h2⟩ := Option.map_eq_some_iff.1 h
  simp only [Prod.mk.injEq] at h2
  exact ⟨s, go_ok (as := []) .nil h1, h2⟩

/-- With four nodes, submap 1 is trimmed as well, and ground truth cannot be generated. -/
example : ∃ s, Exec {} (three ++ step 3 4 ++ [.optimize [], .trim []]) s ∧ generate (toProto world true s) 1 1 1 = none := by
  have h : (go {} (three ++ step 3 4 ++ [.optimize [], .trim []])).map (fun s => ((at? s.submaps (0, 1)).isSome, s.constraints.map fun c => (c.submap, c.node, c.intra))) =
      some (false, [((0, 2), (0, 2), true), ((0, 2), (0, 3), true), ((0, 3), (0, 3), true)]) := rfl
  obtain ⟨s, h1, h2⟩ := Option.map_eq_some_iff.1 h
  simp only [Prod.mk.injEq] at h2
  obtain ⟨h2, h3⟩ := h2
  have hx : (((0, 2), (0, 2), true) : Id × Id × Bool) ∈ s.constraints.map fun c => (c.submap, c.node, c.intra) := by rw [h3]; simp
  obtain ⟨x, hm, hx⟩ := List.mem_map.1 hx
  simp only [Prod.mk.injEq] at hx
  have hexec : Exec {} (three ++ step 3 4 ++ [.optimize [], .trim []]) s := go_ok (as := []) .nil h1
  exact ⟨s, hexec, removed_aborts hexec (by simpa using h2) hm hx.2.2 (by rw [hx.1]; decide) rfl 1 1 1⟩

end Verif.GroundTruthOfMap
