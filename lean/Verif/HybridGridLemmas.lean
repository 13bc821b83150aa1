import Verif.HybridGrid
import Mathlib.Data.List.Nodup
import Mathlib.Tactic.Linarith
import Mathlib.Tactic.Ring

/-!
# Laws of the layers of a hybrid grid
-/

namespace Verif.Hybrid

/-- All components are in `[0, n)`. -/
def InRange (n : Nat) (i : I3) : Prop := 0 ≤ i.x ∧ 0 ≤ i.y ∧ 0 ≤ i.z ∧ i.x < n ∧ i.y < n ∧ i.z < n

instance (n : Nat) (i : I3) : Decidable (InRange n i) := by unfold InRange; infer_instance

theorem toFlat_nat (k x y z : Nat) (hx : x < 2 ^ k) (hy : y < 2 ^ k) (hz : z < 2 ^ k) :
    toFlatIndex ⟨x, y, z⟩ k = some ((z * 2 ^ k + y) * 2 ^ k + x) := by
  unfold toFlatIndex
  rw [if_pos]
  · simp [Nat.shiftLeft_eq]
  · refine ⟨by simp, by simp, by simp, ?_, ?_, ?_⟩ <;> simp only <;> exact_mod_cast ‹_›

theorem to3D_nat (n k : Nat) : to3DIndex n k = ⟨((n % 2 ^ k : Nat) : Int), ((n / 2 ^ k % 2 ^ k : Nat) : Int), ((n / 2 ^ k / 2 ^ k : Nat) : Int)⟩ := by
  simp only [to3DIndex, Nat.and_two_pow_sub_one_eq_mod, Nat.shiftRight_eq_div_pow]

theorem pow3 (k : Nat) : 1 <<< (3 * k) = 2 ^ k * 2 ^ k * 2 ^ k := by
  rw [Nat.one_shiftLeft, Nat.mul_comm, pow_mul]
  ring

theorem toFlat_spec {k : Nat} {i : I3} (h : InRange (2 ^ k) i) :
    ∃ n, toFlatIndex i k = some n ∧ n < 1 <<< (3 * k) ∧ to3DIndex n k = i := by
  obtain ⟨h1, h2, h3, h4, h5, h6⟩ := h
  obtain ⟨x, y, z⟩ := i
  simp only at h1 h2 h3 h4 h5 h6
  obtain ⟨x, rfl⟩ := Int.eq_ofNat_of_zero_le h1
  obtain ⟨y, rfl⟩ := Int.eq_ofNat_of_zero_le h2
  obtain ⟨z, rfl⟩ := Int.eq_ofNat_of_zero_le h3
  have hx : x < 2 ^ k := by exact_mod_cast h4
  have hy : y < 2 ^ k := by exact_mod_cast h5
  have hz : z < 2 ^ k := by exact_mod_cast h6
  refine ⟨_, toFlat_nat k x y z hx hy hz, ?_, ?_⟩
  · rw [pow3]
    generalize 2 ^ k = m at *
    have a : z * m + y < m * m := by nlinarith
    nlinarith
  · rw [to3D_nat]
    generalize 2 ^ k = m at *
    have hm : 0 < m := by omega
    have e1 : ((z * m + y) * m + x) % m = x := by
      rw [Nat.add_comm, Nat.add_mul_mod_self_right, Nat.mod_eq_of_lt hx]
    have e2 : ((z * m + y) * m + x) / m = z * m + y := by
      rw [Nat.mul_comm, Nat.mul_add_div hm, Nat.div_eq_of_lt hx, Nat.add_zero]
    have e3 : (z * m + y) % m = y := by
      rw [Nat.add_comm, Nat.add_mul_mod_self_right, Nat.mod_eq_of_lt hy]
    have e4 : (z * m + y) / m = z := by
      rw [Nat.mul_comm, Nat.mul_add_div hm, Nat.div_eq_of_lt hy, Nat.add_zero]
    rw [e1, e2, e3, e4]

theorem to3D_spec {k n : Nat} (h : n < 1 <<< (3 * k)) : InRange (2 ^ k) (to3DIndex n k) ∧ toFlatIndex (to3DIndex n k) k = some n := by
  rw [pow3] at h
  rw [to3D_nat]
  have hm : 0 < 2 ^ k := by positivity
  have h1 : n % 2 ^ k < 2 ^ k := Nat.mod_lt _ hm
  have h2 : n / 2 ^ k % 2 ^ k < 2 ^ k := Nat.mod_lt _ hm
  have h3 : n / 2 ^ k / 2 ^ k < 2 ^ k := by
    rw [Nat.div_div_eq_div_mul]
    exact Nat.div_lt_of_lt_mul h
  refine ⟨⟨by positivity, by positivity, by positivity, ?_, ?_, ?_⟩, ?_⟩
  · simp only; exact_mod_cast h1
  · simp only; exact_mod_cast h2
  · simp only; exact_mod_cast h3
  · rw [toFlat_nat k _ _ _ h1 h2 h3]
    congr 1
    rw [Nat.div_add_mod', Nat.div_add_mod']

theorem to3D_inj {k n m : Nat} (hn : n < 1 <<< (3 * k)) (hm : m < 1 <<< (3 * k)) (h : to3DIndex n k = to3DIndex m k) : n = m := by
  have a := (to3D_spec hn).2
  have b := (to3D_spec hm).2
  rw [h, b] at a
  simpa using a.symm

theorem toFlat_some {k n : Nat} {i : I3} (h : toFlatIndex i k = some n) : InRange (2 ^ k) i := by
  unfold toFlatIndex at h
  split at h
  · rename_i hc
    simpa [InRange] using hc
  · simp at h

/-- The iterator `it` yields exactly the elements of the list and is then done. -/
def Rep {V : Type} (L : Layer V) (g : L.G) : L.It → List (I3 × V) → Prop
  | it, [] => L.done g it = true
  | it, (i, v) :: l => L.done g it = false ∧ L.index g it = some i ∧ L.current g it = some v ∧
      ∃ it', L.next g it = some it' ∧ Rep L g it' l

/-- What we require of a layer: it is a total map on the indices of its range, and its iterator enumerates the
non-default values. -/
structure Laws {V : Type} (L : Layer V) (d : V) where
  Inv : L.G → Prop
  look : L.G → I3 → V
  list : L.G → List (I3 × V)
  size_pos : 0 < L.size
  empty_inv : Inv L.empty
  empty_look : ∀ i, look L.empty i = d
  value_eq : ∀ g i, Inv g → InRange L.size i → L.value g i = some (look g i)
  modify_eq : ∀ g i f, Inv g → InRange L.size i → ∃ g', L.modify g i f = some g' ∧ Inv g' ∧
    ∀ j, InRange L.size j → look g' j = if j = i then f (look g i) else look g j
  iter : ∀ g, Inv g → Rep L g (L.start g) (list g)
  nodup : ∀ g, Inv g → ((list g).map Prod.fst).Nodup
  mem : ∀ g i v, Inv g → ((i, v) ∈ list g ↔ InRange L.size i ∧ look g i = v ∧ v ≠ d)

section Flat
variable {V : Type} [DecidableEq V] (d : V) (k : Nat)

/-- The non-default cells of a list with the index of the first one. -/
def flatList : List V → Nat → List (I3 × V)
  | [], _ => []
  | v :: vs, n => if v = d then flatList vs (n + 1) else (to3DIndex n k, v) :: flatList vs (n + 1)

theorem flat_rep (vs : List V) : ∀ (pre g : List V), g = pre ++ vs → g.length = 1 <<< (3 * k) →
    Rep (flat d k) g (skipDefault d g pre.length) (flatList d k vs pre.length) := by
  induction vs with
  | nil =>
    intro pre g hg hl
    subst hg
    simp [flatList, Rep, flat, skipDefault]
  | cons v vs ih =>
    intro pre g hg hl
    have ih' := ih (pre ++ [v]) g (by simp [hg]) hl
    simp only [List.length_append, List.length_cons, List.length_nil, Nat.zero_add] at ih'
    have hdrop : g.drop pre.length = v :: vs := by simp [hg]
    have hdrop1 : g.drop (pre.length + 1) = vs := by
      rw [← List.drop_drop, hdrop]; rfl
    by_cases hv : v = d
    · have e : skipDefault d g pre.length = skipDefault d g (pre.length + 1) := by
        simp only [skipDefault, hdrop, hdrop1]
        rw [List.takeWhile_cons_of_pos (by simpa using hv)]
        simp only [List.length_cons]
        omega
      rw [e]
      simpa [flatList, hv] using ih'
    · have e : skipDefault d g pre.length = pre.length := by
        simp only [skipDefault, hdrop]
        rw [List.takeWhile_cons_of_neg (by simpa using hv)]
        rfl
      have hlen : g.length = pre.length + (vs.length + 1) := by simp [hg]
      have hget : g[pre.length]? = some v := by simp [hg]
      rw [e]
      simp only [flatList, hv, if_false, Rep]
      have hne : ¬ pre.length = g.length := by omega
      refine ⟨by simp [flat, hne], ?_, by simp [flat, hne, hget], skipDefault d g (pre.length + 1), by simp [flat, hne], ih'⟩
      simp only [flat, hne, if_false]
      congr 2
      omega

theorem flat_mem (vs : List V) : ∀ (n : Nat) (i : I3) (v : V), (i, v) ∈ flatList d k vs n ↔
    ∃ m, vs[m]? = some v ∧ i = to3DIndex (n + m) k ∧ v ≠ d := by
  induction vs with
  | nil => intro n i v; simp [flatList]
  | cons u vs ih =>
    intro n i v
    have key : (∃ m, (u :: vs)[m]? = some v ∧ i = to3DIndex (n + m) k ∧ v ≠ d) ↔
        (u = v ∧ i = to3DIndex n k ∧ v ≠ d) ∨ ∃ m, vs[m]? = some v ∧ i = to3DIndex (n + 1 + m) k ∧ v ≠ d := by
      constructor
      · rintro ⟨m, h⟩
        cases m with
        | zero => left; simpa using h
        | succ m => right; refine ⟨m, ?_⟩; simpa [Nat.add_assoc, Nat.add_comm 1] using h
      · rintro (h | ⟨m, h⟩)
        · exact ⟨0, by simpa using h⟩
        · refine ⟨m + 1, ?_⟩; simpa [Nat.add_assoc, Nat.add_comm 1] using h
    rw [key]
    by_cases hu : u = d
    · simp only [flatList, hu, if_true, ih]
      constructor
      · exact Or.inr
      · rintro (⟨rfl, -, h⟩ | h)
        · exact absurd rfl h
        · exact h
    · simp only [flatList, hu, if_false, List.mem_cons, ih, Prod.mk.injEq]
      constructor
      · rintro (⟨rfl, rfl⟩ | h)
        · exact Or.inl ⟨rfl, rfl, hu⟩
        · exact Or.inr h
      · rintro (⟨rfl, rfl, -⟩ | h)
        · exact Or.inl ⟨rfl, rfl⟩
        · exact Or.inr h

theorem flat_nodup (vs : List V) : ∀ (n : Nat), n + vs.length ≤ 1 <<< (3 * k) → ((flatList d k vs n).map Prod.fst).Nodup := by
  induction vs with
  | nil => intro n _; simp [flatList]
  | cons u vs ih =>
    intro n hn
    simp only [List.length_cons] at hn
    by_cases hu : u = d
    · simp only [flatList, hu, if_true]
      exact ih (n + 1) (by omega)
    · simp only [flatList, hu, if_false, List.map_cons, List.nodup_cons]
      refine ⟨?_, ih (n + 1) (by omega)⟩
      intro hm
      obtain ⟨⟨i, v⟩, hiv, e⟩ := List.mem_map.1 hm
      simp only at e
      subst e
      obtain ⟨m, h1, h2, -⟩ := (flat_mem d k vs (n + 1) _ v).1 hiv
      have := (List.getElem?_eq_some_iff.1 h1).1
      have := to3D_inj (k := k) (by omega) (by omega) h2
      omega

/-- The laws of `FlatGrid`. -/
def flatLaws : Laws (flat d k) d where
  Inv := fun g : List V => g.length = 1 <<< (3 * k)
  look := fun (g : List V) i => (((toFlatIndex i k).bind (g[·]?)).getD d)
  list := fun g : List V => flatList d k g 0
  size_pos := by simp [flat, Nat.one_shiftLeft]
  empty_inv := by simp [flat]
  empty_look := by
    intro i
    simp only [flat]
    cases toFlatIndex i k with
    | none => rfl
    | some n =>
      simp only [Option.bind_some, List.getElem?_replicate]
      split <;> rfl
  value_eq := by
    intro g i hg hi
    simp only [flat, Nat.one_shiftLeft] at hi
    obtain ⟨n, e, hn, -⟩ := toFlat_spec hi
    change List V at g
    have : n < g.length := by rw [hg]; exact hn
    simp [flat, e, List.getElem?_eq_getElem this]
  modify_eq := by
    intro g i f hg hi
    simp only [flat, Nat.one_shiftLeft] at hi
    obtain ⟨n, e, hn, e3⟩ := toFlat_spec hi
    change List V at g
    have hl : n < g.length := by rw [hg]; exact hn
    refine ⟨(g.set n (f g[n]) : List V), ?_, ?_, ?_⟩
    · simp [flat, e, List.getElem?_eq_getElem hl]
    · rw [List.length_set]; exact hg
    · intro j hj
      simp only [flat, Nat.one_shiftLeft] at hj
      obtain ⟨m, e', hm, e3'⟩ := toFlat_spec hj
      simp only [e, e', Option.bind_some]
      by_cases h : j = i
      · subst h
        obtain rfl : m = n := by rw [e] at e'; simpa using e'.symm
        simp [List.getElem?_eq_getElem hl, List.getElem?_set_self hl]
      · have : n ≠ m := by
          rintro rfl
          exact h (by rw [← e3, ← e3'])
        rw [List.getElem?_set_ne this, if_neg h]
  iter := by
    intro g hg
    exact flat_rep d k g [] g rfl hg
  nodup := by
    intro g hg
    change List V at g
    exact flat_nodup d k g 0 (by rw [hg, Nat.zero_add])
  mem := by
    intro g i v hg
    change List V at g
    rw [flat_mem]
    simp only [Nat.zero_add]
    constructor
    · rintro ⟨m, h1, rfl, h3⟩
      have hm : m < 1 <<< (3 * k) := by rw [← hg]; exact (List.getElem?_eq_some_iff.1 h1).1
      obtain ⟨a, b⟩ := to3D_spec hm
      refine ⟨by simpa [flat, Nat.one_shiftLeft] using a, ?_, h3⟩
      simp [b, h1]
    · rintro ⟨h1, h2, h3⟩
      simp only [flat, Nat.one_shiftLeft] at h1
      obtain ⟨n, e, hn, e3⟩ := toFlat_spec h1
      have hl : n < g.length := by rw [hg]; exact hn
      refine ⟨n, ?_, e3.symm, h3⟩
      rw [e, Option.bind_some, List.getElem?_eq_getElem hl] at h2
      rw [List.getElem?_eq_getElem hl]
      simpa using h2

end Flat

section Nested
variable {V : Type} {d : V} {w : Layer V} (lw : Laws w d) (k : Nat)

/-- Voxel of the whole grid that corresponds to voxel `j` of meta cell number `c`. -/
def outer (w : Layer V) (k c : Nat) (j : I3) : I3 := ((to3DIndex c k).mul w.size).add j

def nestList : List (Option w.G) → Nat → List (I3 × V)
  | [], _ => []
  | none :: ms, c => nestList ms (c + 1)
  | some g :: ms, c => ((lw.list g).map fun p => (outer w k c p.1, p.2)) ++ nestList ms (c + 1)

theorem nest_rep_inner {metas : List (Option w.G)} {c : Nat} {g : w.G} (hc : metas[c]? = some (some g))
    (hl : metas.length = 1 <<< (3 * k)) {rest : List (I3 × V)}
    (hrest : Rep (nested d w k) metas (advance w (metas.drop (c + 1)) (c + 1)) rest) (l : List (I3 × V)) :
    ∀ nit, Rep w g nit l → l ≠ [] → Rep (nested d w k) metas ((c, some nit) : Nat × Option w.It) ((l.map fun p => (outer w k c p.1, p.2)) ++ rest) := by
  have hlt := (List.getElem?_eq_some_iff.1 hc).1
  have hne : ¬ c = metas.length := by omega
  have hidx : (1 <<< (3 * k)) - (metas.length - c) = c := by omega
  induction l with
  | nil => simp
  | cons p l ih =>
    obtain ⟨i, v⟩ := p
    intro nit hr _
    obtain ⟨h1, h2, h3, nit', h4, h5⟩ := hr
    simp only [List.map_cons, List.cons_append, Rep]
    refine ⟨by simp [nested, hne], ?_, ?_, ?_⟩
    · simp only [nested, hne, if_false, hc, h2, hidx, Option.bind_eq_bind, Option.bind_some, outer]
    · simp only [nested, hne, if_false, hc, h3, Option.bind_eq_bind, Option.bind_some]
    · cases l with
      | nil =>
        refine ⟨advance w (metas.drop (c + 1)) (c + 1), ?_, ?_⟩
        · simp only [Rep] at h5
          simp only [nested, hne, if_false, hc, h4, h5, Option.bind_eq_bind, Option.bind_some, if_true]
        · simpa using hrest
      | cons q l =>
        refine ⟨(c, some nit'), ?_, ih nit' h5 (by simp)⟩
        have h6 : w.done g nit' = false := by
          obtain ⟨qi, qv⟩ := q
          exact h5.1
        simp only [nested, hne, if_false, hc, h4, h6, Option.bind_eq_bind, Option.bind_some]
        rfl

theorem nest_rep (ms : List (Option w.G)) : ∀ (pre metas : List (Option w.G)), metas = pre ++ ms → metas.length = 1 <<< (3 * k) →
    (∀ g, some g ∈ metas → lw.Inv g) → Rep (nested d w k) metas (advance w ms pre.length) (nestList lw k ms pre.length) := by
  induction ms with
  | nil =>
    intro pre metas hm hl hi
    simp [nestList, advance, Rep, nested, hm]
  | cons m ms ih =>
    intro pre metas hm hl hi
    have ih' := ih (pre ++ [m]) metas (by simp [hm]) hl hi
    simp only [List.length_append, List.length_cons, List.length_nil, Nat.zero_add] at ih'
    cases m with
    | none => simpa [advance, nestList] using ih'
    | some g =>
      have hinv := hi g (by simp [hm])
      have hit := lw.iter g hinv
      cases hlist : lw.list g with
      | nil =>
        rw [hlist] at hit
        simp only [Rep] at hit
        simpa [advance, nestList, hit, hlist] using ih'
      | cons q l =>
        rw [hlist] at hit
        have hd : w.done g (w.start g) = false := by
          obtain ⟨qi, qv⟩ := q
          exact hit.1
        have hdrop : metas.drop (pre.length + 1) = ms := by
          rw [hm, ← List.drop_drop]; simp
        have hc : metas[pre.length]? = some (some g) := by simp [hm]
        have := nest_rep_inner (d := d) k hc hl (rest := nestList lw k ms (pre.length + 1)) (by rw [hdrop]; exact ih') (q :: l)
          (w.start g) hit (by simp)
        simpa [advance, nestList, hd, hlist] using this

theorem nest_mem (ms : List (Option w.G)) : ∀ (c : Nat) (i : I3) (v : V), (i, v) ∈ nestList lw k ms c ↔
    ∃ n g j, ms[n]? = some (some g) ∧ (j, v) ∈ lw.list g ∧ i = outer w k (c + n) j := by
  induction ms with
  | nil => intro c i v; simp [nestList]
  | cons m ms ih =>
    intro c i v
    have key : (∃ n g j, (m :: ms)[n]? = some (some g) ∧ (j, v) ∈ lw.list g ∧ i = outer w k (c + n) j) ↔
        (∃ g j, m = some g ∧ (j, v) ∈ lw.list g ∧ i = outer w k c j) ∨
        ∃ n g j, ms[n]? = some (some g) ∧ (j, v) ∈ lw.list g ∧ i = outer w k (c + 1 + n) j := by
      constructor
      · rintro ⟨n, g, j, h⟩
        cases n with
        | zero => left; exact ⟨g, j, by simpa using h⟩
        | succ n => right; refine ⟨n, g, j, ?_⟩; simpa [Nat.add_assoc, Nat.add_comm 1] using h
      · rintro (⟨g, j, h⟩ | ⟨n, g, j, h⟩)
        · exact ⟨0, g, j, by simpa using h⟩
        · refine ⟨n + 1, g, j, ?_⟩; simpa [Nat.add_assoc, Nat.add_comm 1] using h
    rw [key]
    cases m with
    | none => simp [nestList, ih]
    | some g =>
      simp only [nestList, List.mem_append, ih, List.mem_map, Prod.mk.injEq, Prod.exists, Option.some.injEq]
      constructor
      · rintro (⟨j, u, h, rfl, rfl⟩ | h)
        · exact Or.inl ⟨g, j, rfl, h, rfl⟩
        · exact Or.inr h
      · rintro (⟨g', j, rfl, h, rfl⟩ | h)
        · exact Or.inl ⟨j, v, h, rfl, rfl⟩
        · exact Or.inr h

theorem I3.ext' {a b : I3} (h1 : a.x = b.x) (h2 : a.y = b.y) (h3 : a.z = b.z) : a = b := by
  cases a; cases b; simp_all

theorem split_coord {s m q : Int} (hs : 0 < s) (h0 : 0 ≤ q) (h1 : q < s) : (m * s + q) / s = m := by
  rw [Int.add_comm, Int.add_mul_ediv_right _ _ (by omega), Int.ediv_eq_zero_of_lt h0 h1, Int.zero_add]

theorem outer_div {c : Nat} {j : I3} (hj : InRange w.size j) : (outer w k c j).div w.size = to3DIndex c k := by
  obtain ⟨h1, h2, h3, h4, h5, h6⟩ := hj
  have hs : (0 : Int) < w.size := by omega
  apply I3.ext' <;> simp only [outer, I3.div, I3.add, I3.mul] <;> rw [split_coord hs (by assumption) (by assumption)]

theorem outer_range {c : Nat} {j : I3} (hc : c < 1 <<< (3 * k)) (hj : InRange w.size j) : InRange (w.size * 2 ^ k) (outer w k c j) := by
  obtain ⟨h1, h2, h3, h4, h5, h6⟩ := hj
  obtain ⟨⟨g1, g2, g3, g4, g5, g6⟩, -⟩ := to3D_spec hc
  have key : ∀ s n m q : Int, 0 ≤ m → m < n → 0 ≤ q → q < s → 0 ≤ m * s + q ∧ m * s + q < s * n := by
    intro s n m q a b c d
    constructor
    · nlinarith
    · nlinarith
  have := key _ _ _ _ g1 g4 h1 h4
  have := key _ _ _ _ g2 g5 h2 h5
  have := key _ _ _ _ g3 g6 h3 h6
  simp only [InRange, outer, I3.add, I3.mul]
  push_cast at *
  refine ⟨?_, ?_, ?_, ?_, ?_, ?_⟩ <;> tauto

theorem nest_nodup (ms : List (Option w.G)) : ∀ (c : Nat), c + ms.length ≤ 1 <<< (3 * k) →
    (∀ g, some g ∈ ms → lw.Inv g) → ((nestList lw k ms c).map Prod.fst).Nodup := by
  induction ms with
  | nil => intro c _ _; simp [nestList]
  | cons m ms ih =>
    intro c hc hi
    simp only [List.length_cons] at hc
    have ih' := ih (c + 1) (by omega) (fun g hg => hi g (by simp [hg]))
    cases m with
    | none => simpa [nestList] using ih'
    | some g =>
      have hinv := hi g (by simp)
      simp only [nestList, List.map_append, List.nodup_append, List.map_map]
      refine ⟨?_, ih', ?_⟩
      · have := lw.nodup g hinv
        have e : (Prod.fst ∘ fun p : I3 × V => (outer w k c p.1, p.2)) = (outer w k c) ∘ Prod.fst := rfl
        rw [e, ← List.map_map]
        refine List.Nodup.map ?_ this
        intro a b h
        simp only [outer, I3.add, I3.mk.injEq] at h
        apply I3.ext' <;> omega
      · intro a ha b hb hab
        subst hab
        obtain ⟨⟨j, v⟩, hj, rfl⟩ := List.mem_map.1 ha
        obtain ⟨⟨j', v'⟩, hj', e⟩ := List.mem_map.1 hb
        obtain ⟨n, g', q, h1, h2, h3⟩ := (nest_mem lw k ms (c + 1) _ _).1 hj'
        simp only [Function.comp] at e
        subst h3
        have hr1 := ((lw.mem g j v hinv).1 hj).1
        have hr2 := ((lw.mem g' q v' (hi g' (by simp [List.mem_of_getElem? h1]))).1 h2).1
        have := congrArg (fun i => i.div w.size) e
        simp only [outer_div k hr1, outer_div k hr2] at this
        have hn := (List.getElem?_eq_some_iff.1 h1).1
        have := to3D_inj (k := k) (by omega) (by omega) this
        omega

theorem div_range {s n : Nat} {i : I3} (h : InRange (s * n) i) : InRange n (i.div s) := by
  obtain ⟨h1, h2, h3, h4, h5, h6⟩ := h
  push_cast at h4 h5 h6
  have hs : (0 : Int) < s := by
    rcases Nat.eq_zero_or_pos s with h | h
    · subst h; simp at h4; omega
    · exact_mod_cast h
  refine ⟨Int.ediv_nonneg h1 (by omega), Int.ediv_nonneg h2 (by omega), Int.ediv_nonneg h3 (by omega), ?_, ?_, ?_⟩ <;>
    simp only [I3.div] <;> exact Int.ediv_lt_of_lt_mul hs (by rwa [Int.mul_comm])

theorem inner_range {s : Nat} (hs : 0 < s) (i : I3) : InRange s (i.add ((i.div s).mul (-s))) := by
  have key : ∀ x : Int, 0 ≤ x + x / s * -s ∧ x + x / s * -s < s := by
    intro x
    have e : x + x / s * -s = x % s := by
      rw [Int.emod_def]; ring
    rw [e]
    exact ⟨Int.emod_nonneg _ (by omega), Int.emod_lt_of_pos _ (by omega)⟩
  have := key i.x
  have := key i.y
  have := key i.z
  simp only [InRange, I3.add, I3.mul, I3.div]
  tauto

theorem inner_outer {s : Nat} (i : I3) : (((i.div s).mul s).add (i.add ((i.div s).mul (-s)))) = i := by
  apply I3.ext' <;> simp only [I3.add, I3.mul, I3.div] <;> ring

theorem outer_inner {m j : I3} {s : Nat} : ((m.mul s).add j).add (m.mul (-s)) = j := by
  apply I3.ext' <;> simp only [I3.add, I3.mul] <;> ring

/-- Contents of a nested grid. -/
def nestLook (metas : List (Option w.G)) (i : I3) : V :=
  match (toFlatIndex (i.div w.size) k).bind (metas[·]?) with
  | some (some g) => lw.look g (i.add ((i.div w.size).mul (-w.size)))
  | _ => d

/-- The laws of `NestedGrid` over any layer that satisfies the laws. -/
def nestedLaws : Laws (nested d w k) d where
  Inv := fun metas : List (Option w.G) => metas.length = 1 <<< (3 * k) ∧ ∀ g, some g ∈ metas → lw.Inv g
  look := fun metas : List (Option w.G) => nestLook lw k metas
  list := fun metas : List (Option w.G) => nestList lw k metas 0
  size_pos := by
    simp only [nested, Nat.shiftLeft_eq]
    exact Nat.mul_pos lw.size_pos (by positivity)
  empty_inv := by
    simp only [nested]
    refine ⟨by simp, ?_⟩
    intro g hg
    exact absurd (List.eq_of_mem_replicate hg) (by simp)
  empty_look := by
    intro i
    simp only [nested, nestLook]
    cases toFlatIndex (i.div w.size) k with
    | none => rfl
    | some n =>
      simp only [Option.bind_some, List.getElem?_replicate]
      split
      · rename_i h; split at h <;> simp at h
      · rfl
  value_eq := by
    intro metas i hm hi
    obtain ⟨hl, hinv⟩ := hm
    change List (Option w.G) at metas
    have hi' : InRange (w.size * 2 ^ k) i := by simpa [nested, Nat.shiftLeft_eq] using hi
    obtain ⟨n, e, hn, -⟩ := toFlat_spec (div_range hi')
    have hlt : n < metas.length := by rw [hl]; exact hn
    have hget := List.getElem?_eq_getElem hlt
    simp only [nested, nestLook, e, Option.bind_eq_bind, Option.bind_some]
    cases hc : metas[n] with
    | none =>
      rw [hc] at hget
      simp [hget]
    | some g =>
      rw [hc] at hget
      simp only [hget, Option.bind_some]
      exact lw.value_eq g _ (hinv g (List.mem_of_getElem? hget)) (inner_range lw.size_pos i)
  modify_eq := by
    intro metas i f hm hi
    obtain ⟨hl, hinv⟩ := hm
    change List (Option w.G) at metas
    have hi' : InRange (w.size * 2 ^ k) i := by simpa [nested, Nat.shiftLeft_eq] using hi
    obtain ⟨n, e, hn, e3⟩ := toFlat_spec (div_range hi')
    have hlt : n < metas.length := by rw [hl]; exact hn
    have hget := List.getElem?_eq_getElem hlt
    have hg0 : lw.Inv (metas[n].getD w.empty) := by
      cases hc : metas[n] with
      | none => exact lw.empty_inv
      | some g =>
        rw [hc] at hget
        exact hinv g (List.mem_of_getElem? hget)
    have hlook0 : lw.look (metas[n].getD w.empty) (i.add ((i.div w.size).mul (-w.size))) = nestLook lw k metas i := by
      simp only [nestLook, e, Option.bind_some, hget]
      cases hc : metas[n] with
      | none => simp [lw.empty_look]
      | some g => rfl
    obtain ⟨g', m1, m2, m3⟩ := lw.modify_eq _ _ f hg0 (inner_range lw.size_pos i)
    refine ⟨(metas.set n (some g') : List (Option w.G)), ?_, ⟨?_, ?_⟩, ?_⟩
    · simp only [nested, e, hget, m1, Option.bind_eq_bind, Option.bind_some]
    · rw [List.length_set]; exact hl
    · intro g hg
      rcases List.mem_or_eq_of_mem_set hg with h | h
      · exact hinv g h
      · simp only [Option.some.injEq] at h
        rw [h]; exact m2
    · intro j hj
      have hj' : InRange (w.size * 2 ^ k) j := by simpa [nested, Nat.shiftLeft_eq] using hj
      obtain ⟨m, e', hm', e3'⟩ := toFlat_spec (div_range hj')
      by_cases hnm : n = m
      · subst hnm
        have hdiv : j.div w.size = i.div w.size := by rw [← e3, ← e3']
        have hl1 : nestLook lw k (metas.set n (some g')) j = lw.look g' (j.add ((j.div w.size).mul (-w.size))) := by
          simp only [nestLook, e', Option.bind_some, List.getElem?_set_self hlt]
        rw [hl1, m3 _ (inner_range lw.size_pos j), hlook0]
        have heq : (j.add ((j.div w.size).mul (-w.size)) = i.add ((i.div w.size).mul (-w.size))) ↔ j = i := by
          rw [hdiv]
          constructor
          · intro h
            simp only [I3.add, I3.mk.injEq] at h
            apply I3.ext' <;> omega
          · rintro rfl; rfl
        by_cases h : j = i
        · rw [if_pos (heq.2 h), if_pos h]
        · rw [if_neg (fun h' => h (heq.1 h')), if_neg h]
          simp only [nestLook, e', Option.bind_some, hget]
          cases hc : metas[n] with
          | none => simp [lw.empty_look]
          | some g => rfl
      · have h : j ≠ i := by
          rintro rfl
          rw [e] at e'
          exact hnm (by simpa using e')
        rw [if_neg h]
        simp only [nestLook, e', Option.bind_some, List.getElem?_set_ne hnm]
  iter := by
    intro metas hm
    exact nest_rep lw k metas [] metas rfl hm.1 hm.2
  nodup := by
    intro metas hm
    change List (Option w.G) at metas
    exact nest_nodup lw k metas 0 (by rw [hm.1, Nat.zero_add]) hm.2
  mem := by
    intro metas i v hm
    obtain ⟨hl, hinv⟩ := hm
    change List (Option w.G) at metas
    rw [nest_mem]
    simp only [Nat.zero_add]
    constructor
    · rintro ⟨n, g, j, h1, h2, rfl⟩
      have hg := hinv g (List.mem_of_getElem? h1)
      obtain ⟨hj, hv, hd⟩ := (lw.mem g j v hg).1 h2
      have hn : n < 1 <<< (3 * k) := by rw [← hl]; exact (List.getElem?_eq_some_iff.1 h1).1
      refine ⟨?_, ?_, hd⟩
      · simpa [nested, Nat.shiftLeft_eq] using outer_range k hn hj
      · simp only [nestLook]
        rw [outer_div k hj, (to3D_spec hn).2, Option.bind_some, h1]
        simp only [outer]
        rw [outer_inner]
        exact hv
    · rintro ⟨h1, h2, h3⟩
      have hi' : InRange (w.size * 2 ^ k) i := by simpa [nested, Nat.shiftLeft_eq] using h1
      obtain ⟨n, e, hn, e3⟩ := toFlat_spec (div_range hi')
      have hlt : n < metas.length := by rw [hl]; exact hn
      have hget := List.getElem?_eq_getElem hlt
      simp only [nestLook, e, Option.bind_some, hget] at h2
      cases hc : metas[n] with
      | none => rw [hc] at h2; exact absurd h2.symm h3
      | some g =>
        rw [hc] at h2 hget
        simp only at h2
        refine ⟨n, g, i.add ((i.div w.size).mul (-w.size)), hget, ?_, ?_⟩
        · exact (lw.mem g _ v (hinv g (List.mem_of_getElem? hget))).2 ⟨inner_range lw.size_pos i, h2, h3⟩
        · simp only [outer, e3, inner_outer]

end Nested

end Verif.Hybrid
