import Verif.HybridGridLemmas

/-!
# C18, C19: the 3D grid is a total map and iterating it enumerates the stored voxels
-/

namespace Verif.Hybrid

section Dyn
variable {V : Type} {d : V} {w : Layer V} (lw : Laws w d)

/-- Invariant of `DynamicGrid`. -/
def DynWf (g : Dyn w) : Prop := 1 ≤ g.bits ∧ g.bits ≤ 8 ∧ (nestedLaws lw g.bits).Inv g.metas

/-- The meta cell at an index of the array of meta cells, if there is one. -/
def metaAt (bits : Nat) (metas : List (Option w.G)) (m : I3) : Option w.G :=
  ((toFlatIndex m bits).bind (metas[·]?)).join

/-- Contents of a dynamic grid. -/
def dlook (g : Dyn w) (i : I3) : V :=
  match metaAt g.bits g.metas ((i.div w.size).addScalar (2 ^ (g.bits - 1) : Nat)) with
  | some γ => lw.look γ (i.add ((i.div w.size).mul (-w.size)))
  | none => d

theorem half_eq {g : Dyn w} (h : 1 ≤ g.bits) : g.gridSize >>> 1 = w.size * 2 ^ (g.bits - 1) := by
  obtain ⟨b, hb⟩ : ∃ b, g.bits = b + 1 := ⟨g.bits - 1, by omega⟩
  simp only [Dyn.gridSize, hb, Nat.shiftLeft_eq, Nat.shiftRight_one, Nat.add_sub_cancel, pow_succ]
  rw [← Nat.mul_assoc, Nat.mul_div_cancel _ (by omega)]

theorem gridSize_eq (g : Dyn w) : g.gridSize = w.size * 2 ^ g.bits := by
  simp [Dyn.gridSize, Nat.shiftLeft_eq]

theorem shift_div (hs : 0 < w.size) {g : Dyn w} (h : 1 ≤ g.bits) (i : I3) :
    (g.shift i).div w.size = (i.div w.size).addScalar (2 ^ (g.bits - 1) : Nat) := by
  have key : ∀ x : Int, (x + ((w.size * 2 ^ (g.bits - 1) : Nat) : Int)) / w.size = x / w.size + ((2 ^ (g.bits - 1) : Nat) : Int) := by
    intro x
    rw [Nat.cast_mul, Int.mul_comm, Int.add_mul_ediv_right _ _ (by omega)]
  simp only [Dyn.shift, half_eq h, I3.addScalar, I3.div, key]

theorem shift_inner (hs : 0 < w.size) {g : Dyn w} (h : 1 ≤ g.bits) (i : I3) :
    (g.shift i).add (((g.shift i).div w.size).mul (-w.size)) = i.add ((i.div w.size).mul (-w.size)) := by
  rw [shift_div hs h]
  simp only [Dyn.shift, half_eq h, I3.addScalar, I3.add, I3.mul, I3.mk.injEq]
  push_cast
  refine ⟨?_, ?_, ?_⟩ <;> ring

theorem range_of_div {s n : Nat} (hs : 0 < s) {i : I3} (h : InRange n (i.div s)) : InRange (s * n) i := by
  obtain ⟨h1, h2, h3, h4, h5, h6⟩ := h
  have hs' : (0 : Int) < s := by omega
  simp only [I3.div] at *
  have nn : ∀ x : Int, 0 ≤ x / s → 0 ≤ x := fun x hx => by
    by_contra hc
    have := Int.ediv_lt_of_lt_mul (a := x) (b := 0) hs' (by omega)
    omega
  have lt : ∀ x : Int, x / s < n → x < s * n := fun x hx => by
    rw [Int.mul_comm]
    exact (Int.ediv_lt_iff_lt_mul hs').1 hx
  refine ⟨nn _ h1, nn _ h2, nn _ h3, ?_, ?_, ?_⟩ <;> push_cast <;> apply lt <;> assumption

theorem outside_iff (g : Dyn w) (s : I3) : g.outside s = false ↔ InRange g.gridSize s := by
  simp only [Dyn.outside, decide_eq_false_iff_not, InRange]
  omega

theorem nestLook_eq {bits : Nat} (metas : List (Option w.G)) (i : I3) : nestLook lw bits metas i =
    match metaAt bits metas (i.div w.size) with
    | some γ => lw.look γ (i.add ((i.div w.size).mul (-w.size)))
    | none => d := by
  unfold nestLook metaAt
  cases (toFlatIndex (i.div w.size) bits).bind (metas[·]?) with
  | none => rfl
  | some c => cases c <;> rfl

theorem dlook_shift {g : Dyn w} (hw : DynWf lw g) (i : I3) : nestLook lw g.bits g.metas (g.shift i) = dlook lw g i := by
  rw [nestLook_eq, shift_div lw.size_pos hw.1]
  rw [← shift_div lw.size_pos hw.1, shift_inner lw.size_pos hw.1, shift_div lw.size_pos hw.1]
  rfl

theorem dlook_outside {g : Dyn w} (hw : DynWf lw g) {i : I3} (h : g.outside (g.shift i) = true) : dlook lw g i = d := by
  rw [← dlook_shift lw hw, nestLook_eq]
  have : metaAt g.bits g.metas ((g.shift i).div w.size) = none := by
    unfold metaAt
    cases e : toFlatIndex ((g.shift i).div w.size) g.bits with
    | none => rfl
    | some n =>
      have := range_of_div lw.size_pos (toFlat_some e)
      rw [← gridSize_eq, ← outside_iff, h] at this
      simp at this
  rw [this]

theorem dyn_value {g : Dyn w} (hw : DynWf lw g) (i : I3) : g.value d i = some (dlook lw g i) := by
  unfold Dyn.value
  split
  · rename_i h
    rw [dlook_outside lw hw h]
  · rename_i h
    have hr := (outside_iff g _).1 (by simpa using h)
    rw [(nestedLaws lw g.bits).value_eq _ _ hw.2.2 hr, ← dlook_shift lw hw]
    rfl

theorem scatterM_spec {α β : Type} (pos : α → Option Nat) (rd : α → Option β) (as : List α) : ∀ (l : List β),
    (∀ a ∈ as, ∃ p, pos a = some p ∧ p < l.length) → (∀ a ∈ as, ∃ v, rd a = some v) →
    (∀ a ∈ as, ∀ b ∈ as, pos a = pos b → a = b) →
    ∃ l', scatterM pos rd as l = some l' ∧ l'.length = l.length ∧ (∀ a ∈ as, ∀ p, pos a = some p → l'[p]? = rd a) ∧
      ∀ p : Nat, (∀ a ∈ as, pos a ≠ some p) → l'[p]? = l[p]? := by
  induction as with
  | nil => intro l _ _ _; exact ⟨l, rfl, rfl, by simp, by simp⟩
  | cons a as ih =>
    intro l hpos hrd inj
    obtain ⟨v, hv⟩ := hrd a (by simp)
    obtain ⟨p, hp, hpl⟩ := hpos a (by simp)
    obtain ⟨l', e1, e2, e3, e4⟩ := ih (l.set p v) (fun b hb => by simpa using hpos b (by simp [hb]))
      (fun b hb => hrd b (by simp [hb])) (fun b hb c hc => inj b (by simp [hb]) c (by simp [hc]))
    refine ⟨l', ?_, by simpa using e2, ?_, ?_⟩
    · simp only [scatterM, List.foldlM_cons, hp, hv, hpl, if_true, Option.bind_eq_bind, Option.bind_some]
      exact e1
    · intro b hb q hq
      by_cases hba : b ∈ as
      · exact e3 b hba q hq
      · obtain rfl : b = a := by simpa [hba] using hb
        obtain rfl : p = q := by rw [hp] at hq; simpa using hq
        rw [e4 p, List.getElem?_set_self hpl, hv]
        intro c hc e
        exact hba (inj c (by simp [hc]) b (by simp) (by rw [e, hp]) ▸ hc)
    · intro k hk
      rw [e4 k (fun b hb => hk b (by simp [hb])), List.getElem?_set_ne]
      rintro rfl
      exact hk a (by simp) hp

theorem mem_cube (n : Nat) (i : I3) : i ∈ cube n ↔ InRange n i := by
  obtain ⟨x, y, z⟩ := i
  simp only [cube, List.mem_flatMap, List.mem_range, List.mem_map, I3.mk.injEq, InRange]
  constructor
  · rintro ⟨a, ha, b, hb, c, hc, rfl, rfl, rfl⟩
    refine ⟨by omega, by omega, by omega, by omega, by omega, by omega⟩
  · rintro ⟨h1, h2, h3, h4, h5, h6⟩
    exact ⟨z.toNat, by omega, y.toNat, by omega, x.toNat, by omega, by omega, by omega, by omega⟩

/-- Growing succeeds below the maximal size and keeps every value at its index. -/
theorem grow_look {g : Dyn w} (hw : DynWf lw g) (hb : g.bits < 8) : ∃ g', g.grow = some g' ∧ DynWf lw g' ∧
    g'.bits = g.bits + 1 ∧ ∀ i, dlook lw g' i = dlook lw g i := by
  obtain ⟨h1, h2, hl, hinv⟩ := hw
  obtain ⟨b, hbb⟩ : ∃ b, g.bits = b + 1 := ⟨g.bits - 1, by omega⟩
  have hP : (2 ^ (b + 1) : Nat) = 2 ^ b + 2 ^ b := by rw [pow_succ]; omega
  have hP2 : (2 ^ (b + 1 + 1) : Nat) = 2 ^ b + 2 ^ b + (2 ^ b + 2 ^ b) := by rw [pow_succ, hP]; omega
  have hlen8 : 8 * g.metas.length = 1 <<< (3 * (g.bits + 1)) := by
    rw [hl, Nat.one_shiftLeft, Nat.one_shiftLeft, Nat.mul_add, pow_add]
    omega
  have hrange : ∀ i : I3, InRange (2 ^ g.bits) i → InRange (2 ^ (g.bits + 1)) (i.addScalar (1 <<< (g.bits - 1) : Nat)) := by
    intro i hi
    rw [hbb] at *
    rw [Nat.one_shiftLeft]
    simp only [Nat.add_sub_cancel]
    generalize 2 ^ b = m at *
    simp only [InRange, I3.addScalar, hP, hP2] at *
    omega
  obtain ⟨metas', s1, s2, s3, s4⟩ := scatterM_spec
    (fun i : I3 => toFlatIndex (i.addScalar (1 <<< (g.bits - 1) : Nat)) (g.bits + 1))
    (fun i => (toFlatIndex i g.bits).bind (g.metas[·]?)) (cube (1 <<< g.bits)) (List.replicate (8 * g.metas.length) none)
    (by
      intro i hi
      rw [mem_cube, Nat.one_shiftLeft] at hi
      obtain ⟨n, e, hn, -⟩ := toFlat_spec (hrange i hi)
      exact ⟨n, e, by rw [List.length_replicate, hlen8]; exact hn⟩)
    (by
      intro i hi
      rw [mem_cube, Nat.one_shiftLeft] at hi
      obtain ⟨n, e, hn, -⟩ := toFlat_spec hi
      have : n < g.metas.length := by rw [hl]; exact hn
      exact ⟨g.metas[n], by simp [e, List.getElem?_eq_getElem this]⟩)
    (by
      intro i hi j hj e
      rw [mem_cube, Nat.one_shiftLeft] at hi hj
      obtain ⟨n, e1, -, e2⟩ := toFlat_spec (hrange i hi)
      obtain ⟨m, e3, -, e4⟩ := toFlat_spec (hrange j hj)
      rw [e1, e3] at e
      simp only [Option.some.injEq] at e
      rw [← e, e2] at e4
      simp only [I3.addScalar, I3.mk.injEq] at e4
      apply I3.ext' <;> omega)
  refine ⟨⟨g.bits + 1, metas'⟩, ?_, ⟨by simp, by simp only; omega, ?_⟩, rfl, ?_⟩
  · simp only [Dyn.grow, Nat.succ_le_of_lt hb, if_true, s1, Option.bind_eq_bind, Option.bind_some]
  · refine ⟨by rw [s2, List.length_replicate, hlen8], ?_⟩
    intro γ hγ
    obtain ⟨p, hp⟩ := List.mem_iff_getElem?.1 hγ
    by_cases h : ∃ i ∈ cube (1 <<< g.bits), toFlatIndex (i.addScalar (1 <<< (g.bits - 1) : Nat)) (g.bits + 1) = some p
    · obtain ⟨i, hi, e⟩ := h
      have := s3 i hi p e
      rw [hp] at this
      cases hf : toFlatIndex i g.bits with
      | none => rw [hf] at this; simp at this
      | some n =>
        rw [hf, Option.bind_some] at this
        exact hinv γ (List.mem_of_getElem? this.symm)
    · push Not at h
      have := s4 p h
      rw [hp, List.getElem?_replicate] at this
      split at this <;> simp at this
  · intro i
    have hmeta : metaAt (g.bits + 1) metas' ((i.div w.size).addScalar (2 ^ (g.bits + 1 - 1) : Nat)) =
        metaAt g.bits g.metas ((i.div w.size).addScalar (2 ^ (g.bits - 1) : Nat)) := by
      generalize hm : (i.div w.size).addScalar (2 ^ (g.bits - 1) : Nat) = m
      have hm' : (i.div w.size).addScalar (2 ^ (g.bits + 1 - 1) : Nat) = m.addScalar (1 <<< (g.bits - 1) : Nat) := by
        rw [← hm, hbb, Nat.one_shiftLeft]
        simp only [Nat.add_sub_cancel, I3.addScalar, hP, I3.mk.injEq]
        push_cast
        refine ⟨?_, ?_, ?_⟩ <;> ring
      rw [hm']
      unfold metaAt
      by_cases hr : InRange (2 ^ g.bits) m
      · obtain ⟨n, e, hn, -⟩ := toFlat_spec (hrange m hr)
        rw [e, Option.bind_some, s3 m (by rw [mem_cube, Nat.one_shiftLeft]; exact hr) n e]
      · have e0 : toFlatIndex m g.bits = none := by
          cases e : toFlatIndex m g.bits with
          | none => rfl
          | some n => exact absurd (toFlat_some e) hr
        rw [e0]
        cases e : toFlatIndex (m.addScalar (1 <<< (g.bits - 1) : Nat)) (g.bits + 1) with
        | none => rfl
        | some n =>
          rw [Option.bind_some, s4 n, List.getElem?_replicate]
          · split <;> rfl
          · intro a ha ea
            rw [mem_cube, Nat.one_shiftLeft] at ha
            obtain ⟨n', e1, -, e2⟩ := toFlat_spec (hrange a ha)
            obtain ⟨n'', e3, -, e4⟩ := toFlat_spec (toFlat_some e)
            rw [ea] at e1
            rw [e] at e3
            simp only [Option.some.injEq] at e1 e3
            rw [← e1, e3, e4] at e2
            simp only [I3.addScalar, I3.mk.injEq] at e2
            obtain rfl : m = a := by apply I3.ext' <;> omega
            exact hr ha
    simp only [dlook, hmeta]

/-- The indices a grid can grow to: 128 cells of the wrapped grid in each direction. -/
def Supported (w : Layer V) (i : I3) : Prop :=
  -(w.size * 128 : Int) ≤ i.x ∧ -(w.size * 128 : Int) ≤ i.y ∧ -(w.size * 128 : Int) ≤ i.z ∧
    i.x < w.size * 128 ∧ i.y < w.size * 128 ∧ i.z < w.size * 128

instance (w : Layer V) (i : I3) : Decidable (Supported w i) := by unfold Supported; infer_instance

theorem supported_iff {g : Dyn w} (h : g.bits = 8) (i : I3) : InRange g.gridSize (g.shift i) ↔ Supported w i := by
  rw [Dyn.shift, half_eq (by omega), gridSize_eq, h]
  simp only [InRange, Supported, I3.addScalar]
  push_cast
  norm_num
  omega

theorem supported_of_inside {g : Dyn w} (h1 : 1 ≤ g.bits) (h2 : g.bits ≤ 8) {i : I3} (h : InRange g.gridSize (g.shift i)) :
    Supported w i := by
  rw [Dyn.shift, half_eq h1, gridSize_eq] at h
  have e : 2 ^ g.bits = 2 * 2 ^ (g.bits - 1) := by
    obtain ⟨b, hb⟩ : ∃ b, g.bits = b + 1 := ⟨g.bits - 1, by omega⟩
    rw [hb, pow_succ]; simp only [Nat.add_sub_cancel]; omega
  have hle : 2 ^ (g.bits - 1) ≤ 2 ^ 7 := Nat.pow_le_pow_right (by omega) (by omega)
  have hle' : w.size * 2 ^ (g.bits - 1) ≤ w.size * 128 := Nat.mul_le_mul_left _ (by omega)
  have e2 : w.size * 2 ^ g.bits = 2 * (w.size * 2 ^ (g.bits - 1)) := by rw [e]; ring
  rw [e2] at h
  generalize w.size * 2 ^ (g.bits - 1) = m at *
  simp only [InRange, Supported, I3.addScalar] at *
  omega

theorem modifyLoop_spec (i : I3) (hi : Supported w i) (f : V → V) : ∀ (n : Nat) (g : Dyn w), DynWf lw g → 9 ≤ g.bits + n →
    ∃ g', Dyn.modifyLoop d n g i f = some g' ∧ DynWf lw g' ∧ g.bits ≤ g'.bits ∧
      ∀ j, dlook lw g' j = if j = i then f (dlook lw g i) else dlook lw g j := by
  intro n
  induction n with
  | zero => intro g hw hn; have := hw.2.1; omega
  | succ n ih =>
    intro g hw hn
    unfold Dyn.modifyLoop
    by_cases ho : g.outside (g.shift i) = true
    · have hb : g.bits < 8 := by
        rcases Nat.lt_or_ge g.bits 8 with h | h
        · exact h
        · exfalso
          have h8 : g.bits = 8 := le_antisymm hw.2.1 h
          have := (outside_iff g _).2 ((supported_iff h8 i).2 hi)
          rw [ho] at this
          simp at this
      obtain ⟨g1, e1, w1, b1, l1⟩ := grow_look lw hw hb
      obtain ⟨g2, e2, w2, b2, l2⟩ := ih g1 w1 (by omega)
      refine ⟨g2, ?_, w2, by omega, ?_⟩
      · simp only [ho, if_true, e1, Option.bind_eq_bind, Option.bind_some, e2]
      · intro j
        rw [l2 j, l1 i, l1 j]
    · have hr := (outside_iff g _).1 (by simpa using ho)
      obtain ⟨metas', e1, v1, l1⟩ := (nestedLaws lw g.bits).modify_eq g.metas (g.shift i) f hw.2.2 hr
      refine ⟨{ g with metas := metas' }, ?_, ⟨hw.1, hw.2.1, v1⟩, le_refl _, ?_⟩
      · simp only [ho, e1, Option.bind_eq_bind, Option.bind_some]
        rfl
      · intro j
        have hw' : DynWf lw { g with metas := metas' } := ⟨hw.1, hw.2.1, v1⟩
        have hsh : ∀ j, ({ g with metas := metas' } : Dyn w).shift j = g.shift j := fun _ => rfl
        by_cases hj : InRange g.gridSize (g.shift j)
        · have := l1 (g.shift j) hj
          have e : (g.shift j = g.shift i) ↔ j = i := by
            constructor
            · intro h
              simp only [Dyn.shift, I3.addScalar, I3.mk.injEq] at h
              apply I3.ext' <;> omega
            · rintro rfl; rfl
          rw [← dlook_shift lw hw', hsh, ← dlook_shift lw hw, ← dlook_shift lw hw]
          simp only [e] at this
          exact this
        · have hne : j ≠ i := by rintro rfl; exact hj hr
          have ho1 : g.outside (g.shift j) = true := by
            by_contra hc
            exact hj ((outside_iff g _).1 (by simpa using hc))
          rw [if_neg hne, dlook_outside lw hw ho1, dlook_outside lw hw' ho1]

theorem modify_spec {g : Dyn w} (hw : DynWf lw g) {i : I3} (hi : Supported w i) (f : V → V) :
    ∃ g', g.modify d i f = some g' ∧ DynWf lw g' ∧ ∀ j, dlook lw g' j = if j = i then f (dlook lw g i) else dlook lw g j := by
  obtain ⟨g', e, hw', -, l⟩ := modifyLoop_spec lw i hi f 9 g hw (by omega)
  exact ⟨g', e, hw', l⟩

theorem modifyLoop_unsupported (i : I3) (hi : ¬ Supported w i) (f : V → V) : ∀ (n : Nat) (g : Dyn w), DynWf lw g →
    Dyn.modifyLoop d n g i f = none := by
  intro n
  induction n with
  | zero => intro g _; rfl
  | succ n ih =>
    intro g hw
    have ho : g.outside (g.shift i) = true := by
      by_contra hc
      exact hi (supported_of_inside hw.1 hw.2.1 ((outside_iff g _).1 (by simpa using hc)))
    unfold Dyn.modifyLoop
    simp only [ho, if_true]
    rcases Nat.lt_or_ge g.bits 8 with hb | hb
    · obtain ⟨g1, e1, w1, -, -⟩ := grow_look lw hw hb
      simp only [e1, Option.bind_eq_bind, Option.bind_some]
      exact ih g1 w1
    · have : g.grow = none := by
        unfold Dyn.grow
        rw [if_neg (by omega)]
      simp [this]

theorem empty_wf : DynWf lw (Dyn.empty w) := by
  refine ⟨le_refl _, by simp [Dyn.empty], by simp [Dyn.empty], ?_⟩
  intro g hg
  simp only [Dyn.empty] at hg
  exact absurd (List.eq_of_mem_replicate hg) (by simp)

theorem empty_dlook (i : I3) : dlook lw (Dyn.empty w) i = d := by
  unfold dlook metaAt
  simp only [Dyn.empty]
  cases toFlatIndex ((i.div w.size).addScalar (2 ^ (1 - 1) : Nat)) 1 with
  | none => rfl
  | some n =>
    rw [Option.bind_some, List.getElem?_replicate]
    split
    · rename_i h; split at h <;> simp at h
    · rfl

theorem dlook_ne_supported {g : Dyn w} (hw : DynWf lw g) {i : I3} (h : dlook lw g i ≠ d) : Supported w i := by
  refine supported_of_inside hw.1 hw.2.1 ((outside_iff g _).1 ?_)
  by_contra hc
  exact h (dlook_outside lw hw (by simpa using hc))

/-- A program of writes `*grid.mutable_value(i) = f(*grid.mutable_value(i))`. -/
def writes (d : V) : List (I3 × (V → V)) → Dyn w → Option (Dyn w)
  | [], g => some g
  | (i, f) :: ws, g => do
    let g ← g.modify d i f
    writes d ws g

theorem writes_spec (ws : List (I3 × (V → V))) : ∀ (g : Dyn w), DynWf lw g → (∀ u ∈ ws, Supported w u.1) →
    ∃ g', writes d ws g = some g' ∧ DynWf lw g' ∧
      dlook lw g' = ws.foldl (fun m u => Function.update m u.1 (u.2 (m u.1))) (dlook lw g) := by
  induction ws with
  | nil => intro g hw _; exact ⟨g, rfl, hw, rfl⟩
  | cons u ws ih =>
    intro g hw hs
    obtain ⟨i, f⟩ := u
    obtain ⟨g1, e1, w1, l1⟩ := modify_spec lw hw (hs (i, f) (by simp)) f
    obtain ⟨g2, e2, w2, l2⟩ := ih g1 w1 (fun u hu => hs u (by simp [hu]))
    refine ⟨g2, ?_, w2, ?_⟩
    · simp only [writes, e1, Option.bind_eq_bind, Option.bind_some, e2]
    · rw [l2, List.foldl_cons]
      congr 1
      funext j
      rw [l1 j, Function.update_apply]

/-- The iterator of a dynamic grid collects its list of stored voxels. -/
theorem collect_spec {g : Dyn w} (it : (nested d w g.bits).It) (l : List (I3 × V))
    (h : Rep (nested d w g.bits) g.metas it l) (n : Nat) (hn : l.length ≤ n) :
    g.collect d n it = some (l.map fun p => (p.1.addScalar (-(((1 <<< (g.bits - 1)) * w.size : Nat) : Int)), p.2)) := by
  induction l generalizing it n with
  | nil =>
    simp only [Rep] at h
    cases n <;> simp only [Dyn.collect, Dyn.done, h, if_true, List.map_nil]
  | cons p l ih =>
    obtain ⟨i, v⟩ := p
    obtain ⟨h1, h2, h3, it', h4, h5⟩ := h
    obtain ⟨n, rfl⟩ : ∃ m, n = m + 1 := ⟨n - 1, by simp at hn; omega⟩
    simp only [Dyn.collect, Dyn.done, h1, Dyn.index, h2, Dyn.current, h3, Dyn.next, h4, Option.bind_eq_bind, Option.bind_some]
    rw [ih it' h5 n (by simpa using hn)]
    simp

theorem dyn_collect {g : Dyn w} (hw : DynWf lw g) : ∃ l : List (I3 × V), (∀ n, l.length ≤ n → g.collect d n (g.start d) = some l) ∧
    (l.map Prod.fst).Nodup ∧ ∀ i v, (i, v) ∈ l ↔ dlook lw g i = v ∧ v ≠ d := by
  set off : Int := (((1 <<< (g.bits - 1)) * w.size : Nat) : Int) with hoff
  set l0 := (nestedLaws lw g.bits).list g.metas with hl0
  have hoff' : off = (g.gridSize >>> 1 : Nat) := by
    rw [hoff, half_eq hw.1, Nat.one_shiftLeft, Nat.mul_comm]
  refine ⟨l0.map fun p => (p.1.addScalar (-off), p.2), ?_, ?_, ?_⟩
  · intro n hn
    exact collect_spec _ l0 ((nestedLaws lw g.bits).iter g.metas hw.2.2) n (by simpa using hn)
  · have := (nestedLaws lw g.bits).nodup g.metas hw.2.2
    rw [List.map_map]
    have e : (Prod.fst ∘ fun p : I3 × V => (p.1.addScalar (-off), p.2)) = (fun i : I3 => i.addScalar (-off)) ∘ Prod.fst := rfl
    rw [e, ← List.map_map]
    refine List.Nodup.map ?_ this
    intro a b h
    simp only [I3.addScalar, I3.mk.injEq] at h
    apply I3.ext' <;> omega
  · intro i v
    have key : (i, v) ∈ l0.map (fun p => (p.1.addScalar (-off), p.2)) ↔ (g.shift i, v) ∈ l0 := by
      simp only [List.mem_map, Prod.mk.injEq, Prod.exists]
      constructor
      · rintro ⟨j, u, h, rfl, rfl⟩
        have : g.shift (j.addScalar (-off)) = j := by
          simp only [Dyn.shift, ← hoff', I3.addScalar]
          apply I3.ext' <;> simp
        rw [this]; exact h
      · intro h
        refine ⟨g.shift i, v, h, ?_, rfl⟩
        simp only [Dyn.shift, ← hoff', I3.addScalar]
        apply I3.ext' <;> simp
    rw [key, (nestedLaws lw g.bits).mem g.metas _ v hw.2.2]
    have hlook : (nestedLaws lw g.bits).look g.metas (g.shift i) = dlook lw g i := dlook_shift lw hw i
    rw [hlook]
    constructor
    · rintro ⟨-, h⟩; exact h
    · rintro ⟨h1, h2⟩
      refine ⟨?_, h1, h2⟩
      have := dlook_outside lw hw (i := i)
      by_contra hc
      have ho : g.outside (g.shift i) = true := by
        by_contra hc'
        exact hc ((outside_iff g _).1 (by simpa using hc'))
      rw [this ho] at h1
      exact h2 h1.symm

end Dyn

/-- The laws of the wrapped grid of `GridBase`. -/
abbrev baseLaws (V : Type) [DecidableEq V] (d : V) : Laws (base V d) d := nestedLaws (flatLaws d 3) 3

/-- Voxel indices from -8192 to 8191. -/
def Valid (i : I3) : Prop := -8192 ≤ i.x ∧ -8192 ≤ i.y ∧ -8192 ≤ i.z ∧ i.x ≤ 8191 ∧ i.y ≤ 8191 ∧ i.z ≤ 8191

theorem supported_base {V : Type} [DecidableEq V] (d : V) (i : I3) : Supported (base V d) i ↔ Valid i := by
  have : (base V d).size = 64 := rfl
  simp only [Supported, Valid, this]
  omega

/-- **C18**: after any program of writes to voxels with indices in `-8192..8191` nothing has aborted and every voxel
reads as the value last written (default if never written), also outside of the range; a write outside of the range
aborts. -/
theorem grid_is_map {V : Type} [DecidableEq V] (d : V) (ws : List (I3 × (V → V))) (h : ∀ u ∈ ws, Valid u.1) :
    ∃ g, writes d ws (Dyn.empty (base V d)) = some g ∧
      (∀ i, g.value d i = some (ws.foldl (fun m u => Function.update m u.1 (u.2 (m u.1))) (fun _ => d) i)) ∧
      (∀ i f, g.modify d i f = none ↔ ¬ Valid i) := by
  obtain ⟨g, e, hw, l⟩ := writes_spec (baseLaws V d) ws _ (empty_wf _) (fun u hu => (supported_base d _).2 (h u hu))
  refine ⟨g, e, ?_, ?_⟩
  · intro i
    rw [dyn_value (baseLaws V d) hw, l, show dlook (baseLaws V d) (Dyn.empty (base V d)) = fun _ => d from
      funext fun j => empty_dlook _ j]
  · intro i f
    constructor
    · intro hn hv
      obtain ⟨g', e', -⟩ := modify_spec (baseLaws V d) hw ((supported_base d i).2 hv) f
      rw [e'] at hn
      simp at hn
    · intro hv
      exact modifyLoop_unsupported (baseLaws V d) i (fun hs => hv ((supported_base d i).1 hs)) f 9 g hw

/-- **C19**, first part: after any program of writes, iterating the grid ends and yields exactly the voxels that do not
have the default value, each once, with its value. -/
theorem iteration_exact {V : Type} [DecidableEq V] (d : V) (ws : List (I3 × (V → V))) (h : ∀ u ∈ ws, Valid u.1) :
    ∃ g l, writes d ws (Dyn.empty (base V d)) = some g ∧ (∀ n, l.length ≤ n → g.collect d n (g.start d) = some l) ∧
      (l.map Prod.fst).Nodup ∧ ∀ i v, (i, v) ∈ l ↔ g.value d i = some v ∧ v ≠ d := by
  obtain ⟨g, e, hw, -⟩ := writes_spec (baseLaws V d) ws _ (empty_wf _) (fun u hu => (supported_base d _).2 (h u hu))
  obtain ⟨l, h1, h2, h3⟩ := dyn_collect (baseLaws V d) hw
  refine ⟨g, l, e, h1, h2, ?_⟩
  intro i v
  rw [h3, dyn_value (baseLaws V d) hw, Option.some.injEq]

/-- Non-vacuity: three writes, one of them far away (which makes the grid grow seven times), and what is read. -/
example : ∃ g, writes (0 : Nat) [(⟨0, 0, 0⟩, fun _ => 5), (⟨8191, -8192, 3⟩, fun v => v + 7), (⟨0, 0, 0⟩, fun v => v + 1)]
      (Dyn.empty (base Nat 0)) = some g ∧ g.value 0 ⟨0, 0, 0⟩ = some 6 ∧ g.value 0 ⟨8191, -8192, 3⟩ = some 7 ∧
      g.value 0 ⟨1, 0, 0⟩ = some 0 ∧ g.value 0 ⟨10000, 0, 0⟩ = some 0 ∧ g.modify 0 ⟨8192, 0, 0⟩ id = none ∧
      ∃ l, g.collect 0 (l.length) (g.start 0) = some l ∧ (⟨8191, -8192, 3⟩, 7) ∈ l ∧ (⟨0, 0, 0⟩, 6) ∈ l := by
  have hv : ∀ u ∈ ([(⟨0, 0, 0⟩, fun _ => 5), (⟨8191, -8192, 3⟩, fun v => v + 7), (⟨0, 0, 0⟩, fun v => v + 1)] : List (I3 × (Nat → Nat))),
      Valid u.1 := by
    simp [Valid]
  obtain ⟨g, e, h1, h2⟩ := grid_is_map (0 : Nat) _ hv
  obtain ⟨g', l, e', h3, -, h4⟩ := iteration_exact (0 : Nat) _ hv
  rw [e] at e'
  obtain rfl := Option.some.inj e'
  have a1 : g.value 0 ⟨0, 0, 0⟩ = some 6 := by rw [h1]; simp [Function.update_apply]
  have a2 : g.value 0 ⟨8191, -8192, 3⟩ = some 7 := by rw [h1]; simp [Function.update_apply]
  refine ⟨g, e, a1, a2, ?_, ?_, ?_, l, h3 _ (le_refl _), ?_, ?_⟩
  · rw [h1]; simp [Function.update_apply]
  · rw [h1]; simp [Function.update_apply]
  · rw [h2]; simp [Valid]
  · rw [h4]; exact ⟨a2, by norm_num⟩
  · rw [h4]; exact ⟨a1, by norm_num⟩

end Verif.Hybrid
