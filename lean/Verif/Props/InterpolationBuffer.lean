import Verif.InterpolationBuffer
import Verif.Props.Rigid
import Mathlib.Tactic.FieldSimp

/-!
# C40: the interpolation buffer
-/

namespace Verif.InterpolationBuffer

open Rigid

/-! ### Vocabulary -/

def isClear : Op → Bool
  | .clear => true
  | _ => false

def pushedBy : Op → List Stamped
  | .push t x => [⟨t, x⟩]
  | _ => []

/-- The transforms pushed since the buffer was cleared last. -/
def pushed : List Op → List Stamped
  | [] => []
  | op :: ops => if ops.any isClear then pushed ops else pushedBy op ++ pushed ops

/-- In the order of time. -/
def InOrder (l : List Stamped) : Prop := l.Pairwise (fun a b => a.time ≤ b.time)

/-! ### Lemmas -/

theorem removeOld_eq {limit : Nat} {l : List Stamped} : removeOld limit l = l.drop (l.length - limit) := by
  induction l with
  | nil => simp [removeOld]
  | cons x l ih =>
    rw [removeOld]
    split
    · rename_i h
      rw [ih]
      have : (x :: l).length - limit = (l.length - limit) + 1 := by simp only [List.length_cons] at *; omega
      rw [this, List.drop_succ_cons]
    · rename_i h
      have : (x :: l).length - limit = 0 := by omega
      rw [this, List.drop_zero]

theorem removeOld_length {limit : Nat} {l : List Stamped} : (removeOld limit l).length = min l.length limit := by
  rw [removeOld_eq, List.length_drop]; omega

theorem removeOld_suffix {limit : Nat} {l : List Stamped} : removeOld limit l <:+ l := by
  rw [removeOld_eq]; exact List.drop_suffix _ _

theorem inOrder_suffix {l l' : List Stamped} (h : l' <:+ l) (hl : InOrder l) : InOrder l' :=
  List.Pairwise.sublist h.sublist hl

theorem push_spec {b b' : Buffer} {t : Int} {x : Rigid3} (hb : InOrder b.items) (h : push b t x = some b') :
    b'.limit = b.limit ∧ b'.items = removeOld b.limit (b.items ++ [⟨t, x⟩]) ∧ InOrder (b.items ++ [⟨t, x⟩]) := by
  unfold push at h
  split at h
  · rename_i last hlast
    split at h
    · rename_i ht
      obtain rfl := Option.some.inj h
      refine ⟨rfl, rfl, ?_⟩
      rw [InOrder, List.pairwise_append]
      refine ⟨hb, by simp, ?_⟩
      intro a ha c hc
      simp only [List.mem_singleton] at hc
      subst hc
      obtain ⟨l, hl⟩ := List.getLast?_eq_some_iff.1 hlast
      rw [hl] at ha hb
      rcases List.mem_append.1 ha with ha | ha
      · have := (List.pairwise_append.1 hb).2.2 a ha last (by simp)
        exact le_trans this ht
      · simp only [List.mem_singleton] at ha
        subst ha
        exact ht
    · cases h
  · rename_i hlast
    obtain rfl := Option.some.inj h
    refine ⟨rfl, rfl, ?_⟩
    rw [List.getLast?_eq_none_iff] at hlast
    rw [hlast]
    simp [InOrder]

theorem pushed_append_clear {ops : List Op} : pushed (ops ++ [.clear]) = [] := by
  induction ops with
  | nil => simp [pushed, pushedBy]
  | cons op ops ih => rw [List.cons_append, pushed, if_pos (by simp [isClear]), ih]

theorem pushed_append_other {ops : List Op} {n : Nat} : pushed (ops ++ [.setSizeLimit n]) = pushed ops := by
  induction ops with
  | nil => simp [pushed, pushedBy]
  | cons op ops ih =>
    rw [List.cons_append, pushed, pushed, ih]
    simp [isClear]

theorem pushed_append_push {ops : List Op} {t : Int} {x : Rigid3} :
    pushed (ops ++ [.push t x]) = pushed ops ++ [⟨t, x⟩] := by
  induction ops with
  | nil => simp [pushed, pushedBy]
  | cons op ops ih =>
    rw [List.cons_append, pushed, pushed, ih]
    simp only [List.any_append, List.any_cons, List.any_nil, Bool.or_false, isClear]
    split
    · rfl
    · simp

theorem run_append {ops ops' : List Op} : ∀ {b : Buffer},
    run b (ops ++ ops') = (run b ops).bind (fun b' => run b' ops') := by
  induction ops with
  | nil => intro b; rfl
  | cons op ops ih =>
    intro b
    rw [List.cons_append, run, run]
    cases step b op with
    | none => rfl
    | some b' => exact ih

/-- C40: after any operations the buffer holds no more than its limit, in the order of time, and what it holds are the newest of
the transforms pushed since it was cleared last. -/
theorem buffer_newest {n : Nat} {ops : List Op} {b : Buffer} (h : run { limit := n } ops = some b) :
    b.items.length ≤ b.limit ∧ InOrder b.items ∧ b.items <:+ pushed ops := by
  induction ops using List.reverseRecOn generalizing b with
  | nil =>
    obtain rfl := Option.some.inj h
    simp [InOrder, pushed]
  | append_singleton ops op ih =>
    rw [run_append, Option.bind_eq_some_iff] at h
    obtain ⟨b1, h1, h2⟩ := h
    obtain ⟨a1, a2, a3⟩ := ih h1
    rw [run] at h2
    cases op with
    | push t x =>
      cases h3 : step b1 (.push t x) with
      | none => rw [h3] at h2; cases h2
      | some b2 =>
        rw [h3] at h2
        obtain rfl := Option.some.inj h2
        obtain ⟨e1, e2, e3⟩ := push_spec a2 h3
        refine ⟨?_, ?_, ?_⟩
        · rw [e1, e2, removeOld_length]; omega
        · rw [e2]; exact inOrder_suffix removeOld_suffix e3
        · rw [e2, pushed_append_push]
          refine removeOld_suffix.trans ?_
          obtain ⟨l, hl⟩ := a3
          exact ⟨l, by rw [← hl, List.append_assoc]⟩
    | setSizeLimit m =>
      obtain rfl := Option.some.inj h2
      refine ⟨?_, ?_, ?_⟩
      · simp only [setSizeLimit, removeOld_length]; omega
      · exact inOrder_suffix removeOld_suffix a2
      · rw [pushed_append_other]; exact removeOld_suffix.trans a3
    | clear =>
      obtain rfl := Option.some.inj h2
      simp [clear, InOrder]

/-- C40: if the limit is not changed, as many as possible are kept. -/
theorem buffer_keeps {n : Nat} {ops : List Op} {b : Buffer} (h : run { limit := n } ops = some b)
    (hops : ∀ op ∈ ops, ∀ m, op ≠ .setSizeLimit m) :
    b.limit = n ∧ b.items.length = min (pushed ops).length n := by
  induction ops using List.reverseRecOn generalizing b with
  | nil =>
    obtain rfl := Option.some.inj h
    simp [pushed]
  | append_singleton ops op ih =>
    rw [run_append, Option.bind_eq_some_iff] at h
    obtain ⟨b1, h1, h2⟩ := h
    obtain ⟨a1, a2⟩ := ih h1 (fun o ho => hops o (List.mem_append_left _ ho))
    obtain ⟨-, c2, -⟩ := buffer_newest h1
    rw [run] at h2
    cases op with
    | push t x =>
      cases h3 : step b1 (.push t x) with
      | none => rw [h3] at h2; cases h2
      | some b2 =>
        rw [h3] at h2
        obtain rfl := Option.some.inj h2
        obtain ⟨e1, e2, e3⟩ := push_spec c2 h3
        refine ⟨e1.trans a1, ?_⟩
        rw [e2, removeOld_length, pushed_append_push, List.length_append, List.length_append, a1, a2]
        simp only [List.length_singleton]
        omega
    | setSizeLimit m => exact absurd rfl (hops (.setSizeLimit m) (by simp) m)
    | clear =>
      obtain rfl := Option.some.inj h2
      exact ⟨a1, by simp [clear, pushed_append_clear]⟩

/-- C40: a push aborts exactly if the time is earlier than the latest one. -/
theorem push_none_iff {b : Buffer} (hb : InOrder b.items) {t : Int} {x : Rigid3} :
    push b t x = none ↔ ∃ y ∈ b.items, t < y.time := by
  unfold push
  cases hl : b.items.getLast? with
  | none =>
    rw [List.getLast?_eq_none_iff] at hl
    simp [hl]
  | some last =>
    obtain ⟨l, hl⟩ := List.getLast?_eq_some_iff.1 hl
    simp only
    split
    · rename_i ht
      simp only [reduceCtorEq, false_iff, not_exists, not_and, not_lt]
      intro y hy
      rw [hl] at hb hy
      rcases List.mem_append.1 hy with hy | hy
      · exact le_trans ((List.pairwise_append.1 hb).2.2 y hy last (by simp)) ht
      · simp only [List.mem_singleton] at hy
        subst hy
        exact ht
    · rename_i ht
      simp only [true_iff]
      exact ⟨last, by rw [hl]; simp, by omega⟩

/-! ### Lookup -/

theorem lowerBound_spec {time : Int} {l : List Stamped} : ∀ {prev p : Option Stamped} {rest : List Stamped},
    lowerBound time prev l = (p, rest) → ∃ front, l = front ++ rest ∧ (∀ x ∈ front, x.time < time) ∧
      (∀ x ∈ rest.head?, time ≤ x.time) ∧ (p = front.getLast? ∨ front = [] ∧ p = prev) := by
  induction l with
  | nil =>
    intro prev p rest h
    obtain ⟨rfl, rfl⟩ := Prod.mk.inj h
    exact ⟨[], rfl, by simp, by simp, Or.inr ⟨rfl, rfl⟩⟩
  | cons x l ih =>
    intro prev p rest h
    rw [lowerBound] at h
    split at h
    · rename_i hx
      obtain ⟨front, h1, h2, h3, h4⟩ := ih h
      refine ⟨x :: front, by rw [h1]; rfl, ?_, h3, Or.inl ?_⟩
      · intro y hy
        rcases List.mem_cons.1 hy with rfl | hy
        · exact hx
        · exact h2 y hy
      · rcases h4 with h4 | ⟨h4, h5⟩
        · cases front with
          | nil =>
            exfalso
            have : ∀ (prev : Option Stamped) (l : List Stamped), prev.isSome → (lowerBound time prev l).1.isSome := by
              intro prev l
              induction l generalizing prev with
              | nil => intro h; exact h
              | cons z l ih =>
                intro h
                rw [lowerBound]
                split
                · exact ih _ rfl
                · exact h
            have h6 := this (some x) l rfl
            rw [h, h4] at h6
            simp at h6
          | cons y front => rw [h4]; simp
        · rw [h4, h5]; rfl
    · rename_i hx
      obtain ⟨rfl, rfl⟩ := Prod.mk.inj h
      refine ⟨[], rfl, by simp, ?_, Or.inr ⟨rfl, rfl⟩⟩
      intro y hy
      simp only [List.head?_cons, Option.mem_some_iff] at hy
      subst hy
      omega

/-- The buffer covers a time. -/
def Covers (b : Buffer) (time : Int) : Prop := (∃ x ∈ b.items, x.time ≤ time) ∧ ∃ x ∈ b.items, time ≤ x.time

theorem has_iff {b : Buffer} (hb : InOrder b.items) {time : Int} : has b time = true ↔ Covers b time := by
  unfold has Covers
  cases hi : b.items with
  | nil => simp
  | cons first l =>
    rw [hi] at hb
    have hlast : ∃ last, (first :: l).getLast? = some last := ⟨_, List.getLast?_eq_some_getLast (by simp)⟩
    obtain ⟨last, hlast⟩ := hlast
    rw [hlast]
    simp only [List.head?_cons, Bool.and_eq_true, decide_eq_true_eq]
    obtain ⟨l', hl'⟩ := List.getLast?_eq_some_iff.1 hlast
    constructor
    · rintro ⟨h1, h2⟩
      exact ⟨⟨first, by simp, h1⟩, ⟨last, by rw [hl']; simp, h2⟩⟩
    · rintro ⟨⟨x, hx, h1⟩, ⟨y, hy, h2⟩⟩
      constructor
      · rcases List.mem_cons.1 hx with rfl | hx
        · exact h1
        · exact le_trans ((List.pairwise_cons.1 hb).1 x hx) h1
      · rw [hl'] at hb hy
        rcases List.mem_append.1 hy with hy | hy
        · exact le_trans h2 ((List.pairwise_append.1 hb).2.2 y hy last (by simp))
        · simp only [List.mem_singleton] at hy
          subst hy
          exact h2

theorem slerp_some {eps : ℝ} (he : 0 ≤ eps) (a : Quat) (t : ℝ) (b : Quat) : ∃ q, slerp eps a t b = some q := by
  unfold slerp
  simp only
  split
  · exact ⟨_, rfl⟩
  · rename_i h
    rw [if_neg]
    · exact ⟨_, rfl⟩
    · rw [Real.sin_arccos]
      apply ne_of_gt
      apply Real.sqrt_pos.2
      have h0 := abs_nonneg (a.w * b.w + a.x * b.x + a.y * b.y + a.z * b.z)
      nlinarith

/-- C40: looking up a stored time yields the first transform stored for it; between stored times the neighbours are interpolated,
and nothing is divided by zero; other times abort. -/
theorem lookup_spec {eps : ℝ} (he : 0 ≤ eps) {b : Buffer} (hb : InOrder b.items) {time : Int} :
    (¬ Covers b time ∧ lookup eps b time = none) ∨
    (∃ front x rest, b.items = front ++ x :: rest ∧ x.time = time ∧ (∀ y ∈ front, y.time ≠ time) ∧
      lookup eps b time = some x.transform) ∨
    (∃ front x y rest q, b.items = front ++ x :: y :: rest ∧ x.time < time ∧ time < y.time ∧
      slerp eps x.transform.rotation (((time - x.time : Int) : ℝ) / ((y.time - x.time : Int) : ℝ)) y.transform.rotation = some q ∧
      lookup eps b time = some ⟨⟨
        x.transform.translation.x + (y.transform.translation.x - x.transform.translation.x) *
          (((time - x.time : Int) : ℝ) / ((y.time - x.time : Int) : ℝ)),
        x.transform.translation.y + (y.transform.translation.y - x.transform.translation.y) *
          (((time - x.time : Int) : ℝ) / ((y.time - x.time : Int) : ℝ)),
        x.transform.translation.z + (y.transform.translation.z - x.transform.translation.z) *
          (((time - x.time : Int) : ℝ) / ((y.time - x.time : Int) : ℝ))⟩, q⟩) := by
  by_cases hc : has b time = true
  · have hcov := (has_iff hb).1 hc
    right
    generalize hlb : lowerBound time none b.items = lb
    obtain ⟨p, rest⟩ := lb
    obtain ⟨front, h1, h2, h3, h4⟩ := lowerBound_spec hlb
    cases rest with
    | nil =>
      exfalso
      obtain ⟨-, x, hx, hxt⟩ := hcov
      rw [h1, List.append_nil] at hx
      have := h2 x hx
      omega
    | cons y rest =>
      have hy : time ≤ y.time := h3 y (by simp)
      by_cases hyt : y.time = time
      · left
        refine ⟨front, y, rest, h1, hyt, fun z hz => ne_of_lt (h2 z hz), ?_⟩
        simp only [lookup, hc, if_true, hlb, hyt]
      · right
        have hlt : time < y.time := by omega
        have hne : front ≠ [] := by
          rintro rfl
          obtain ⟨⟨x, hx, hxt⟩, -⟩ := hcov
          rw [h1, List.nil_append] at hx
          rw [h1, List.nil_append] at hb
          rcases List.mem_cons.1 hx with rfl | hx
          · omega
          · have := (List.pairwise_cons.1 hb).1 x hx
            omega
        have hp : p = front.getLast? := h4.resolve_right (fun h => hne h.1)
        obtain ⟨x, hx⟩ : ∃ x, front.getLast? = some x := ⟨_, List.getLast?_eq_some_getLast hne⟩
        obtain ⟨front', hf⟩ := List.getLast?_eq_some_iff.1 hx
        have hxt : x.time < time := h2 x (by rw [hf]; simp)
        have hd : (0 : ℝ) < ((y.time - x.time : Int) : ℝ) := by
          rw [Int.cast_pos]; omega
        have hfac : ((time - x.time : Int) : ℝ) / 10000000 / (((y.time - x.time : Int) : ℝ) / 10000000) =
            ((time - x.time : Int) : ℝ) / ((y.time - x.time : Int) : ℝ) := by
          field_simp
        obtain ⟨q, hq⟩ := slerp_some he x.transform.rotation (((time - x.time : Int) : ℝ) / ((y.time - x.time : Int) : ℝ))
          y.transform.rotation
        refine ⟨front', x, y, rest, q, ?_, hxt, hlt, hq, ?_⟩
        · rw [h1, hf, List.append_assoc]; rfl
        · have hdur : ((y.time - x.time : Int) : ℝ) / 10000000 ≠ 0 := by positivity
          simp only [lookup, hc, if_true, hlb, hp, hx, if_neg hyt, interpolate, if_pos (le_of_lt hxt),
            if_pos (show y.time ≥ time from hy), if_neg hdur, hfac, hq, Option.map_some]
  · left
    refine ⟨fun h => hc ((has_iff hb).2 h), ?_⟩
    rw [lookup, if_neg hc]

/-- C40: a lookup succeeds exactly between the earliest and the latest time. -/
theorem lookup_iff {eps : ℝ} (he : 0 ≤ eps) {b : Buffer} (hb : InOrder b.items) {time : Int} :
    (lookup eps b time).isSome ↔ Covers b time := by
  rcases lookup_spec he hb (time := time) with ⟨h1, h2⟩ | ⟨front, x, rest, h1, h2, -, h3⟩ |
    ⟨front, x, y, rest, q, h1, h2, h3, -, h4⟩
  · simp [h1, h2]
  · rw [h3]
    simp only [Option.isSome_some, true_iff]
    exact ⟨⟨x, by rw [h1]; simp, by omega⟩, ⟨x, by rw [h1]; simp, by omega⟩⟩
  · rw [h4]
    simp only [Option.isSome_some, true_iff]
    exact ⟨⟨x, by rw [h1]; simp, by omega⟩, ⟨y, by rw [h1]; simp, by omega⟩⟩

/-- C40: interpolated translations lie between the neighbours. -/
theorem between {a b f : ℝ} (h0 : 0 ≤ f) (h1 : f ≤ 1) : min a b ≤ a + (b - a) * f ∧ a + (b - a) * f ≤ max a b := by
  rcases le_total a b with h | h
  · rw [min_eq_left h, max_eq_right h]; constructor <;> nlinarith
  · rw [min_eq_right h, max_eq_left h]; constructor <;> nlinarith

/-! ### Interpolated rotations -/

/-- The interpolation of rotations that are not almost equal or opposite is a rotation. -/
theorem slerp_unit {eps t : ℝ} {a b q : Quat} (ha : a.Unit) (hb : b.Unit) (he : 0 < eps)
    (hfar : |a.w * b.w + a.x * b.x + a.y * b.y + a.z * b.z| < 1 - eps) (h : slerp eps a t b = some q) : q.Unit := by
  unfold slerp at h
  simp only at h
  rw [if_neg (not_le.2 hfar)] at h
  have hs0 : Real.sin (Real.arccos |a.w * b.w + a.x * b.x + a.y * b.y + a.z * b.z|) ≠ 0 := by
    intro h0
    rw [if_pos h0] at h
    cases h
  rw [if_neg hs0] at h
  have ha' : a.w ^ 2 + a.x ^ 2 + a.y ^ 2 + a.z ^ 2 = 1 := ha
  have hb' : b.w ^ 2 + b.x ^ 2 + b.y ^ 2 + b.z ^ 2 = 1 := hb
  generalize hd : a.w * b.w + a.x * b.x + a.y * b.y + a.z * b.z = d at *
  have hcos : Real.cos (Real.arccos |d|) = |d| := Real.cos_arccos (by linarith [abs_nonneg d]) (by linarith)
  generalize hth : Real.arccos |d| = θ at *
  have hsq : Real.sin ((1 - t) * θ) ^ 2 + Real.sin (t * θ) ^ 2 + 2 * Real.sin ((1 - t) * θ) * Real.sin (t * θ) * Real.cos θ =
      Real.sin θ ^ 2 := by
    have h1 : (1 - t) * θ = θ - t * θ := by ring
    rw [h1, Real.sin_sub]
    have h2 := Real.sin_sq_add_cos_sq θ
    have h3 := Real.sin_sq_add_cos_sq (t * θ)
    linear_combination (Real.sin θ ^ 2) * h3 + (-(Real.sin (t * θ)) ^ 2) * h2
  obtain rfl := Option.some.inj h
  unfold Quat.Unit
  simp only
  generalize hs0' : Real.sin ((1 - t) * θ) / Real.sin θ = s0
  generalize hs1' : Real.sin (t * θ) / Real.sin θ = s1
  have hone : s0 ^ 2 + s1 ^ 2 + 2 * s0 * s1 * |d| = 1 := by
    rw [← hs0', ← hs1', ← hcos]
    field_simp
    linear_combination hsq
  split
  · rename_i hneg
    rw [abs_of_neg hneg] at hone
    linear_combination hone + s0 ^ 2 * ha' + s1 ^ 2 * hb' - 2 * s0 * s1 * hd
  · rename_i hpos
    rw [abs_of_nonneg (not_lt.1 hpos)] at hone
    linear_combination hone + s0 ^ 2 * ha' + s1 ^ 2 * hb' + 2 * s0 * s1 * hd

/-! ### Examples -/

/-- A transform without rotation. -/
def shift (x : ℝ) : Rigid3 := ⟨⟨x, 0, 0⟩, ⟨1, 0, 0, 0⟩⟩

/-- Three transforms pushed into a buffer for two. -/
noncomputable def demo : Buffer := { items := [⟨10, shift 1⟩, ⟨20, shift 2⟩], limit := 2 }

example : run { limit := 2 } [.push 0 (shift 0), .push 10 (shift 1), .push 20 (shift 2)] = some demo := by
  simp [run, step, push, removeOld, demo]

example : run { limit := 2 } [.push 0 (shift 0), .push (-1) (shift 1)] = none := by
  simp [run, step, push, removeOld]

example : InOrder demo.items ∧ Covers demo 15 ∧ ¬ Covers demo 5 := by
  simp [InOrder, Covers, demo]

end Verif.InterpolationBuffer
