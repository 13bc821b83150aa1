import Mathlib.Data.List.Perm.Subperm
import Verif.LuaDictionary

/-!
# C43: configuration dictionaries detect unused and doubly used keys
-/

namespace Verif.Lua

open Verif

set_option linter.unusedSectionVars false
set_option linter.unusedSimpArgs false

variable {S : Type} [LinearOrder S]

/-! ### Specification -/

/-- Whether a use reads the given key of the dictionary it is applied to. -/
def readsKey (k : S) : Use S → Bool
  | .getString k' | .getDouble k' | .getInt k' | .getNonNegativeInt k' | .getBool k' | .getDictionary k' _ =>
    decide (k' = k)
  | _ => false

/-- How often a key is read by a sequence of uses. -/
def reads (k : S) (l : List (Use S)) : Nat := l.countP (readsKey k)

/-- No key is anything but a string or a number. -/
def PlainKeys (t : Table S) : Prop := ∀ e ∈ t, ∀ n, e.1 ≠ .other n

/-- Every key that is a string and not the text of a number is read exactly once. -/
def ReadOnce (T : ToNumber S) (t : Table S) (l : List (Use S)) : Prop :=
  PlainKeys t ∧ ∀ s v, (Key.str s, v) ∈ t → T s = none → reads s l = 1

mutual
/-- A single use is possible: the key is there, the value has the right type, and a dictionary that is read is itself used
properly. -/
def Good (T : ToNumber S) (counted : Bool) (t : Table S) : Use S → Prop
  | .hasKey _ => True
  | .getKeys => PlainKeys t
  | .getString k => ∃ v, rawget t (.str k) = some v ∧ isString v = true
  | .getDouble k => ∃ v q, rawget t (.str k) = some v ∧ asNumber T v = some q
  | .getInt k => ∃ v q, rawget t (.str k) = some v ∧ asNumber T v = some q
  | .getNonNegativeInt k => ∃ v q, rawget t (.str k) = some v ∧ asNumber T v = some q ∧ 0 ≤ truncate q
  | .getBool k => ∃ v, rawget t (.str k) = some v ∧ isBool v = true
  | .getDictionary k body => ∃ sub, rawget t (.str k) = some (.table sub) ∧ AllGood T counted sub body ∧
      (counted = true → ReadOnce T sub body)
  | .arrayDoubles => ∀ v ∈ arrayValues t, ∃ q, asNumber T v = some q
  | .arrayStrings => ∀ v ∈ arrayValues t, isString v = true
  | .arrayDictionaries body => ∀ v ∈ arrayValues t, ∃ sub, v = .table sub ∧ AllGood T counted sub body ∧
      (counted = true → ReadOnce T sub body)

/-- All uses are possible. -/
def AllGood (T : ToNumber S) (counted : Bool) (t : Table S) : List (Use S) → Prop
  | [] => True
  | u :: l => Good T counted t u ∧ AllGood T counted t l
end

theorem allGood_iff {T : ToNumber S} {counted : Bool} {t : Table S} {l : List (Use S)} :
    AllGood T counted t l ↔ ∀ u ∈ l, Good T counted t u := by
  induction l with
  | nil => simp [AllGood]
  | cons u l ih => simp [AllGood, ih]

/-! ### Lemmas -/

theorem getKeys_spec (T : ToNumber S) (t : Table S) :
    (PlainKeys t → ∃ keys, getKeys T t = some keys ∧ ∀ s, s ∈ keys ↔ T s = none ∧ ∃ v, (Key.str s, v) ∈ t) ∧
      ((getKeys T t).isSome → PlainKeys t) := by
  induction t with
  | nil => exact ⟨fun _ => ⟨[], rfl, by simp⟩, fun _ => by simp [PlainKeys]⟩
  | cons e t ih =>
    obtain ⟨k, v⟩ := e
    have hp : PlainKeys ((k, v) :: t) ↔ (∀ n, k ≠ .other n) ∧ PlainKeys t := by simp [PlainKeys]
    rw [hp]
    cases k with
    | num n =>
      rw [getKeys]
      refine ⟨?_, fun h => ⟨by simp, ih.2 h⟩⟩
      rintro ⟨-, h⟩
      obtain ⟨keys, h1, h2⟩ := ih.1 h
      exact ⟨keys, h1, by simpa using h2⟩
    | other n =>
      rw [getKeys]
      exact ⟨fun h => absurd rfl (h.1 n), fun h => by simp at h⟩
    | str s =>
      rw [getKeys]
      cases hs : T s with
      | some q =>
        simp only [Option.isSome_some, if_true]
        refine ⟨?_, fun h => ⟨by simp, ih.2 h⟩⟩
        rintro ⟨-, h⟩
        obtain ⟨keys, h1, h2⟩ := ih.1 h
        refine ⟨keys, h1, ?_⟩
        intro s'
        rw [h2]
        constructor
        · rintro ⟨h3, v', h4⟩; exact ⟨h3, v', by simp [h4]⟩
        · rintro ⟨h3, v', h4⟩
          refine ⟨h3, v', ?_⟩
          rcases List.mem_cons.1 h4 with h4 | h4
          · injection h4 with h4; injection h4 with h4; subst h4; rw [hs] at h3; cases h3
          · exact h4
      | none =>
        simp only [Option.isSome_none, Bool.false_eq_true, if_false, Option.isSome_map]
        refine ⟨?_, fun h => ⟨by simp, ih.2 h⟩⟩
        rintro ⟨-, h⟩
        obtain ⟨keys, h1, h2⟩ := ih.1 h
        refine ⟨s :: keys, by rw [h1]; rfl, ?_⟩
        intro s'
        rw [List.mem_cons, h2]
        constructor
        · rintro (rfl | ⟨h3, v', h4⟩)
          · exact ⟨hs, v, by simp⟩
          · exact ⟨h3, v', by simp [h4]⟩
        · rintro ⟨h3, v', h4⟩
          rcases List.mem_cons.1 h4 with h4 | h4
          · injection h4 with h4; injection h4 with h4; exact Or.inl h4
          · exact Or.inr ⟨h3, v', h4⟩

/-- How a dictionary changes: every key was read the given number of times. -/
structure Next (d d' : Dict S) (f : S → Nat) : Prop where
  table : d'.table = d.table
  counted : d'.counted = d.counted
  counts : ∀ k, SMap.get? k d'.counts =
    if f k = 0 then SMap.get? k d.counts else some ((SMap.get? k d.counts).getD 0 + f k)

theorem Next.refl (d : Dict S) : Next d d (fun _ => 0) := ⟨rfl, rfl, fun _ => by simp⟩

theorem Next.trans {d d' d'' : Dict S} {f g : S → Nat} (h1 : Next d d' f) (h2 : Next d' d'' g) :
    Next d d'' (fun k => f k + g k) := by
  refine ⟨h2.table.trans h1.table, h2.counted.trans h1.counted, ?_⟩
  intro k
  rw [h2.counts, h1.counts]
  by_cases hf : f k = 0
  · by_cases hg : g k = 0 <;> simp [hf, hg]
  · by_cases hg : g k = 0
    · simp [hf, hg]
    · simp [hf, hg]; omega

theorem reference_spec (d : Dict S) (k : S) :
    (∀ v, rawget d.table (.str k) = some v → ∃ d', reference d k = some (v, d') ∧
      Next d d' (fun k' => if k = k' then 1 else 0)) ∧
    (∀ v d', reference d k = some (v, d') → rawget d.table (.str k) = some v ∧ d'.counted = d.counted) := by
  constructor
  · intro v hv
    refine ⟨{ d with counts := SMap.put k ((SMap.get? k d.counts).getD 0 + 1) d.counts }, ?_, rfl, rfl, ?_⟩
    · simp [reference, hv]
    · intro k'
      simp only [SMap.get?_put]
      by_cases h : k = k'
      · subst h; simp
      · simp [h]
  · intro v d' h
    unfold reference at h
    cases hv : rawget d.table (.str k) with
    | none => simp [hv] at h
    | some w =>
      simp only [hv, Option.some.injEq, Prod.mk.injEq] at h
      exact ⟨by rw [h.1], by rw [← h.2]⟩

theorem destroy_spec {T : ToNumber S} {t : Table S} {counted : Bool} {d : Dict S} {f : S → Nat}
    (h : Next { table := t, counted := counted } d f) :
    destroy T d = some () ↔
      (counted = true → PlainKeys t ∧ ∀ s v, (Key.str s, v) ∈ t → T s = none → f s = 1) := by
  have h1 : d.table = t := h.table
  have h2 : d.counted = counted := h.counted
  have hc : ∀ k, SMap.get? k d.counts = some 1 ↔ f k = 1 := by
    intro k
    rw [h.counts k]
    by_cases h0 : f k = 0
    · simp [h0, SMap.get?]
    · simp [h0, SMap.get?]
  unfold destroy
  rw [h1, h2]
  cases counted with
  | false => simp
  | true =>
    simp only [if_true, forall_const]
    obtain ⟨g1, g2⟩ := getKeys_spec T t
    by_cases hp : PlainKeys t
    · obtain ⟨keys, hk, hm⟩ := g1 hp
      rw [hk]
      simp only [List.all_eq_true, decide_eq_true_eq, hc]
      constructor
      · intro hx
        split at hx
        · rename_i hall
          exact ⟨hp, fun s v hs hT => hall s ((hm s).2 ⟨hT, v, hs⟩)⟩
        · cases hx
      · rintro ⟨-, hx⟩
        rw [if_pos]
        intro s hs
        obtain ⟨hT, v, hv⟩ := (hm s).1 hs
        exact hx s v hv hT
    · cases hg : getKeys T t with
      | none => simp [hp]
      | some keys => exact absurd (g2 (by simp [hg])) hp

theorem check_some {b : Bool} {u : Unit} : check b = some u ↔ b = true := by
  unfold check; split <;> simp [*]

theorem consume_spec {T : ToNumber S} {counted : Bool} {l : List (Use S)} {v : Value S}
    (h : ∀ d : Dict S, (AllGood T d.counted d.table l → ∃ d', uses T d l = some d' ∧ Next d d' (fun k => reads k l)) ∧
      (∀ d', uses T d l = some d' → AllGood T d.counted d.table l)) :
    consume T counted (fun d => uses T d l) v = some () ↔ ∃ sub, v = .table sub ∧ AllGood T counted sub l ∧
      (counted = true → ReadOnce T sub l) := by
  cases v with
  | table t =>
    simp only [consume, Option.bind_eq_bind, Option.bind_eq_some_iff, Value.table.injEq, exists_eq_left']
    obtain ⟨h1, h2⟩ := h { table := t, counted := counted }
    constructor
    · rintro ⟨d', hd, hx⟩
      have hg := h2 d' hd
      obtain ⟨d2, hd2, hn⟩ := h1 hg
      rw [hd] at hd2
      injection hd2 with hd2
      subst hd2
      exact ⟨hg, (destroy_spec hn).1 hx⟩
    · rintro ⟨hg, hx⟩
      obtain ⟨d', hd, hn⟩ := h1 hg
      exact ⟨d', hd, (destroy_spec hn).2 hx⟩
  | _ => simp [consume]

theorem unit_isSome {o : Option Unit} : o.isSome = true ↔ o = some () := by
  cases o <;> simp

mutual
theorem use_spec (T : ToNumber S) : ∀ (u : Use S) (d : Dict S),
    (Good T d.counted d.table u → ∃ d', use T d u = some d' ∧ Next d d' (fun k => reads k [u])) ∧
      (∀ d', use T d u = some d' → Good T d.counted d.table u)
  | .hasKey k, d => by
    refine ⟨fun _ => ⟨d, rfl, by simpa [reads, readsKey] using Next.refl d⟩, fun _ _ => by simp [Good]⟩
  | .getKeys, d => by
    constructor
    · intro h
      rw [Good] at h
      obtain ⟨keys, hk, -⟩ := (getKeys_spec T d.table).1 h
      exact ⟨d, by rw [use, hk]; rfl, by simpa [reads, readsKey] using Next.refl d⟩
    · intro d' h
      rw [use, Option.map_eq_some_iff] at h
      obtain ⟨keys, hk, -⟩ := h
      rw [Good]
      exact (getKeys_spec T d.table).2 (by simp [hk])
  | .getString k, d => by
    constructor
    · intro h
      rw [Good] at h
      obtain ⟨v, hv, hs⟩ := h
      obtain ⟨d', hd, hn⟩ := (reference_spec d k).1 v hv
      refine ⟨d', ?_, by simpa [reads, readsKey, List.countP_cons] using hn⟩
      rw [use, hd]
      simp [check, hs]
    · intro d' h
      rw [use] at h
      simp only [Option.bind_eq_bind, Option.bind_eq_some_iff, check_some] at h
      obtain ⟨⟨v, d1⟩, h1, -, h2, h3⟩ := h
      rw [Good]
      exact ⟨v, ((reference_spec d k).2 v d1 h1).1, h2⟩
  | .getDouble k, d => by
    constructor
    · intro h
      rw [Good] at h
      obtain ⟨v, q, hv, hs⟩ := h
      obtain ⟨d', hd, hn⟩ := (reference_spec d k).1 v hv
      refine ⟨d', ?_, by simpa [reads, readsKey, List.countP_cons] using hn⟩
      rw [use, hd]
      simp [check, hs]
    · intro d' h
      rw [use] at h
      simp only [Option.bind_eq_bind, Option.bind_eq_some_iff, check_some, decide_eq_true_eq] at h
      obtain ⟨⟨v, d1⟩, h1, q, h2, -⟩ := h
      rw [Good]
      exact ⟨v, q, ((reference_spec d k).2 v d1 h1).1, h2⟩
  | .getInt k, d => by
    constructor
    · intro h
      rw [Good] at h
      obtain ⟨v, q, hv, hs⟩ := h
      obtain ⟨d', hd, hn⟩ := (reference_spec d k).1 v hv
      refine ⟨d', ?_, by simpa [reads, readsKey, List.countP_cons] using hn⟩
      rw [use, hd]
      simp [check, hs]
    · intro d' h
      rw [use] at h
      simp only [Option.bind_eq_bind, Option.bind_eq_some_iff, check_some, decide_eq_true_eq] at h
      obtain ⟨⟨v, d1⟩, h1, q, h2, -⟩ := h
      rw [Good]
      exact ⟨v, q, ((reference_spec d k).2 v d1 h1).1, h2⟩
  | .getNonNegativeInt k, d => by
    constructor
    · intro h
      rw [Good] at h
      obtain ⟨v, q, hv, hs, h0⟩ := h
      obtain ⟨d', hd, hn⟩ := (reference_spec d k).1 v hv
      refine ⟨d', ?_, by simpa [reads, readsKey, List.countP_cons] using hn⟩
      rw [use, hd]
      simp [check, hs, h0]
    · intro d' h
      rw [use] at h
      simp only [Option.bind_eq_bind, Option.bind_eq_some_iff, check_some, decide_eq_true_eq] at h
      obtain ⟨⟨v, d1⟩, h1, q, h2, -, h3, -⟩ := h
      rw [Good]
      exact ⟨v, q, ((reference_spec d k).2 v d1 h1).1, h2, h3⟩
  | .getBool k, d => by
    constructor
    · intro h
      rw [Good] at h
      obtain ⟨v, hv, hs⟩ := h
      obtain ⟨d', hd, hn⟩ := (reference_spec d k).1 v hv
      refine ⟨d', ?_, by simpa [reads, readsKey, List.countP_cons] using hn⟩
      rw [use, hd]
      simp [check, hs]
    · intro d' h
      rw [use] at h
      simp only [Option.bind_eq_bind, Option.bind_eq_some_iff, check_some, decide_eq_true_eq] at h
      obtain ⟨⟨v, d1⟩, h1, -, h2, -⟩ := h
      rw [Good]
      exact ⟨v, ((reference_spec d k).2 v d1 h1).1, h2⟩
  | .getDictionary k body, d => by
    have ih := uses_spec T body
    constructor
    · intro h
      rw [Good] at h
      obtain ⟨sub, hv, hg⟩ := h
      obtain ⟨d', hd, hn⟩ := (reference_spec d k).1 _ hv
      refine ⟨d', ?_, by simpa [reads, readsKey, List.countP_cons] using hn⟩
      rw [use, hd]
      simp only [Option.bind_eq_bind, Option.bind_some]
      rw [hn.counted, (consume_spec ih).2 ⟨sub, rfl, hg⟩]
      rfl
    · intro d' h
      rw [use] at h
      simp only [Option.bind_eq_bind, Option.bind_eq_some_iff] at h
      obtain ⟨⟨v, d1⟩, h1, _, h2, h3⟩ := h
      obtain ⟨g1, g2⟩ := (reference_spec d k).2 v d1 h1
      simp only [g2] at h2
      obtain ⟨sub, rfl, hg⟩ := (consume_spec ih).1 h2
      rw [Good]
      exact ⟨sub, g1, hg⟩
  | .arrayDoubles, d => by
    constructor
    · intro h
      rw [Good] at h
      refine ⟨d, ?_, by simpa [reads, readsKey] using Next.refl d⟩
      rw [use]
      simp only [Option.bind_eq_bind, Option.bind_eq_some_iff, check_some, List.all_eq_true, Option.isSome_iff_exists]
      exact ⟨(), h, trivial⟩
    · intro d' h
      rw [use] at h
      simp only [Option.bind_eq_bind, Option.bind_eq_some_iff, check_some, List.all_eq_true, Option.isSome_iff_exists] at h
      rw [Good]
      exact h.choose_spec.1
  | .arrayStrings, d => by
    constructor
    · intro h
      rw [Good] at h
      refine ⟨d, ?_, by simpa [reads, readsKey] using Next.refl d⟩
      rw [use]
      simp only [Option.bind_eq_bind, Option.bind_eq_some_iff, check_some, List.all_eq_true, Option.isSome_iff_exists]
      exact ⟨(), h, trivial⟩
    · intro d' h
      rw [use] at h
      simp only [Option.bind_eq_bind, Option.bind_eq_some_iff, check_some, List.all_eq_true, Option.isSome_iff_exists] at h
      rw [Good]
      exact h.choose_spec.1
  | .arrayDictionaries body, d => by
    have ih := uses_spec T body
    constructor
    · intro h
      rw [Good] at h
      refine ⟨d, ?_, by simpa [reads, readsKey] using Next.refl d⟩
      rw [use]
      simp only [Option.bind_eq_bind, Option.bind_eq_some_iff, check_some, List.all_eq_true, unit_isSome, consume_spec ih]
      exact ⟨(), h, trivial⟩
    · intro d' h
      rw [use] at h
      simp only [Option.bind_eq_bind, Option.bind_eq_some_iff, check_some, List.all_eq_true, unit_isSome,
        consume_spec ih] at h
      rw [Good]
      exact h.choose_spec.1

theorem uses_spec (T : ToNumber S) : ∀ (l : List (Use S)) (d : Dict S),
    (AllGood T d.counted d.table l → ∃ d', uses T d l = some d' ∧ Next d d' (fun k => reads k l)) ∧
      (∀ d', uses T d l = some d' → AllGood T d.counted d.table l)
  | [], d => ⟨fun _ => ⟨d, rfl, by simpa [reads] using Next.refl d⟩, fun _ _ => by simp [AllGood]⟩
  | u :: l, d => by
    obtain ⟨h1, h2⟩ := use_spec T u d
    have ih := uses_spec T l
    constructor
    · intro h
      rw [AllGood] at h
      obtain ⟨d1, hd1, hn1⟩ := h1 h.1
      obtain ⟨d2, hd2, hn2⟩ := (ih d1).1 (by rw [hn1.table, hn1.counted]; exact h.2)
      refine ⟨d2, by rw [uses, hd1]; exact hd2, ?_⟩
      have := hn1.trans hn2
      simp only [reads, List.countP_cons, List.countP_nil] at this ⊢
      simpa [Nat.add_comm] using this
    · intro d' h
      rw [uses] at h
      simp only [Option.bind_eq_bind, Option.bind_eq_some_iff] at h
      obtain ⟨d1, hd1, hd2⟩ := h
      have hg := h2 d1 hd1
      obtain ⟨d1', hd1', hn⟩ := h1 hg
      rw [hd1] at hd1'
      injection hd1' with hd1'
      subst hd1'
      have := (ih d1).2 d' hd2
      rw [hn.table, hn.counted] at this
      rw [AllGood]
      exact ⟨hg, this⟩
end

/-! ### Theorems -/

/-- **C43, exact.** Using a dictionary and then destroying it goes through exactly if every use is possible and, for a
dictionary that counts references, every string key that is not the text of a number was read exactly once and there are
no keys other than strings and numbers. The same holds for all dictionaries within it that were read. -/
theorem life_iff {T : ToNumber S} {counted : Bool} {t : Table S} {l : List (Use S)} :
    life T counted t l = some () ↔ (∀ u ∈ l, Good T counted t u) ∧ (counted = true → ReadOnce T t l) := by
  unfold life
  rw [consume_spec (uses_spec T l)]
  simp [allGood_iff]

/-- **C43 (partial).** If a dictionary that counts references is destroyed without aborting, every string key that is
not the text of a number was read exactly once. Missing: string keys that are the text of a number, for which the
statement is false (`numeric_key_unchecked`). -/
theorem read_once_partial {T : ToNumber S} {t : Table S} {l : List (Use S)} (h : life T true t l = some ()) {s : S}
    {v : Value S} (hm : (Key.str s, v) ∈ t) (hs : T s = none) : reads s l = 1 :=
  ((life_iff.1 h).2 rfl).2 s v hm hs

/-- An unused key aborts. -/
theorem unused_aborts {T : ToNumber S} {t : Table S} {l : List (Use S)} {s : S} {v : Value S}
    (hm : (Key.str s, v) ∈ t) (hs : T s = none) (h0 : reads s l = 0) : life T true t l = none := by
  cases h : life T true t l with
  | none => rfl
  | some _ => have := read_once_partial h hm hs; omega

/-- A key read twice aborts. -/
theorem double_use_aborts {T : ToNumber S} {t : Table S} {l : List (Use S)} {s : S} {v : Value S}
    (hm : (Key.str s, v) ∈ t) (hs : T s = none) (h2 : 2 ≤ reads s l) : life T true t l = none := by
  cases h : life T true t l with
  | none => rfl
  | some _ => have := read_once_partial h hm hs; omega

/-- Reading a missing key aborts, also in a dictionary that does not count references. -/
theorem missing_aborts {T : ToNumber S} {counted : Bool} {t : Table S} {l : List (Use S)} {u : Use S} (hu : u ∈ l)
    {s : S} (hr : readsKey s u = true) (hm : rawget t (.str s) = none) : life T counted t l = none := by
  cases h : life T counted t l with
  | none => rfl
  | some _ =>
    have hg := (life_iff.1 h).1 u hu
    cases u <;> simp only [readsKey, decide_eq_true_eq, Bool.false_eq_true] at hr <;> subst hr <;>
      simp [Good, hm] at hg

/-- Asking whether a key is there changes nothing: it neither counts as a use nor aborts. -/
theorem hasKey_free {T : ToNumber S} {counted : Bool} {t : Table S} (l l' : List (Use S)) (k : S) :
    life T counted t (l ++ .hasKey k :: l') = life T counted t (l ++ l') := by
  have : life T counted t (l ++ .hasKey k :: l') = some () ↔ life T counted t (l ++ l') = some () := by
    rw [life_iff, life_iff]
    have hr : ∀ s, reads s (l ++ .hasKey k :: l') = reads s (l ++ l') := by
      intro s; simp [reads, List.countP_append, List.countP_cons, readsKey]
    simp only [ReadOnce, hr, List.mem_append, List.mem_cons]
    refine and_congr ⟨fun h u hu => h u (by tauto), fun h u hu => ?_⟩ Iff.rfl
    rcases hu with hu | rfl | hu
    · exact h u (Or.inl hu)
    · simp [Good]
    · exact h u (Or.inr hu)
  cases h1 : life T counted t (l ++ .hasKey k :: l') <;> cases h2 : life T counted t (l ++ l') <;> simp_all

/-- The order of the uses does not matter. -/
theorem order_free {T : ToNumber S} {counted : Bool} {t : Table S} {l l' : List (Use S)} (hp : l.Perm l') :
    life T counted t l = life T counted t l' := by
  have : life T counted t l = some () ↔ life T counted t l' = some () := by
    rw [life_iff, life_iff]
    have hr : ∀ s, reads s l = reads s l' := fun s => hp.countP_eq _
    simp only [ReadOnce, hr, hp.mem_iff]
  cases h1 : life T counted t l <;> cases h2 : life T counted t l' <;> simp_all

/-- Nested dictionaries are checked as well: if a dictionary within was read, each of its keys was read exactly once. -/
theorem nested_read_once {T : ToNumber S} {t sub : Table S} {l body : List (Use S)} {k s : S} {v : Value S}
    (h : life T true t l = some ()) (hu : .getDictionary k body ∈ l) (hk : rawget t (.str k) = some (.table sub))
    (hm : (Key.str s, v) ∈ sub) (hs : T s = none) : reads s body = 1 := by
  have hg := (life_iff.1 h).1 _ hu
  rw [Good] at hg
  obtain ⟨sub', h1, -, h3⟩ := hg
  rw [hk] at h1
  injection h1 with h1
  injection h1 with h1
  subst h1
  exact (h3 rfl).2 s v hm hs

/-! ### Arrays -/

theorem rawget_key {t : Table S} {k : Key S} {v : Value S} (h : rawget t k = some v) : k ∈ t.map Prod.fst := by
  simp only [rawget, Option.map_eq_some_iff] at h
  obtain ⟨e, h1, -⟩ := h
  have h2 := List.find?_some h1
  simp only [decide_eq_true_eq] at h2
  exact List.mem_map.2 ⟨e, List.mem_of_find?_eq_some h1, h2⟩

theorem arrayFrom_spec {t : Table S} {n : Nat} : ∀ {i : Int}, (arrayFrom t n i).length ≤ n ∧
    (∀ j, j < (arrayFrom t n i).length → rawget t (.num (i + j)) = (arrayFrom t n i)[j]?) ∧
    ((arrayFrom t n i).length < n → rawget t (.num (i + (arrayFrom t n i).length)) = none) := by
  induction n with
  | zero => intro i; simp [arrayFrom]
  | succ n ih =>
    intro i
    rw [arrayFrom]
    cases h : rawget t (.num i) with
    | none => simp [h]
    | some v =>
      obtain ⟨h1, h2, h3⟩ := ih (i := i + 1)
      simp only [List.length_cons]
      refine ⟨by omega, ?_, fun hl => ?_⟩
      · intro j hj
        cases j with
        | zero => simp [h]
        | succ j =>
          have := h2 j (by omega)
          rw [List.getElem?_cons_succ, ← this]
          congr 2
          omega
      · rw [← h3 (by omega)]
        congr 2
        omega

/-- `GetArrayValues` gives the values for 1, 2, …, in this order, up to the first number without a value. -/
theorem arrayValues_spec (t : Table S) : (∀ j, j < (arrayValues t).length → rawget t (.num (j + 1)) = (arrayValues t)[j]?) ∧
    rawget t (.num ((arrayValues t).length + 1)) = none := by
  obtain ⟨h1, h2, h3⟩ := arrayFrom_spec (t := t) (n := t.length) (i := 1)
  refine ⟨fun j hj => ?_, ?_⟩
  · rw [Int.add_comm]; exact h2 j hj
  · rw [Int.add_comm]
    rcases Nat.lt_or_ge (arrayFrom t t.length 1).length t.length with hl | hl
    · exact h3 hl
    · cases hx : rawget t (.num (1 + ((arrayValues t).length : Int))) with
      | none => rfl
      | some v =>
        exfalso
        have hlen : (arrayValues t).length = t.length := le_antisymm h1 hl
        -- more keys than entries
        have hsub : (List.range (t.length + 1)).map (fun j : Nat => (Key.num (1 + (j : Int)) : Key S)) ⊆ t.map Prod.fst := by
          intro k hk
          obtain ⟨j, hj, rfl⟩ := List.mem_map.1 hk
          have hj := List.mem_range.1 hj
          rcases Nat.lt_or_ge j t.length with hj' | hj'
          · have hjl : j < (arrayFrom t t.length 1).length := by unfold arrayValues at hlen; omega
            have := h2 j hjl
            rw [List.getElem?_eq_getElem hjl] at this
            exact rawget_key this
          · have : j = (arrayValues t).length := by omega
            rw [this]
            exact rawget_key hx
        have hnd : ((List.range (t.length + 1)).map (fun j : Nat => (Key.num (1 + (j : Int)) : Key S))).Nodup := by
          refine List.Nodup.map (fun a b hab => ?_) List.nodup_range
          simp only [Key.num.injEq] at hab
          omega
        have := (hnd.subperm hsub).length_le
        simp only [List.length_map, List.length_range] at this
        omega

/-- `{ 7, 8, x, [4] = 9 }` without `x`. -/
example : arrayValues ([(.num 4, .num 9), (.num 1, .num 7), (.num 2, .num 8)] : Table Nat) = [.num 7, .num 8] := rfl

/-! ### Concrete dictionaries -/

/-- The texts used in the examples: 0 stands for "a", 1 for "b", 2 for the text "12". -/
def sampleToNumber : ToNumber Nat := fun s => if s = 2 then some 12 else none

/-- **C43, negation.** A string key that is the text of a number is never checked: a dictionary with an unused key is
destroyed without an abort. -/
theorem numeric_key_unchecked : ∃ (T : ToNumber Nat) (t : Table Nat) (s : Nat) (v : Value Nat),
    (Key.str s, v) ∈ t ∧ reads s [] = 0 ∧ life T true t [] = some () :=
  ⟨sampleToNumber, [(.str 2, .bool true)], 2, .bool true, by simp, rfl, rfl⟩

/-- And a key of another kind, such as a boolean, leads to undefined behaviour however the dictionary is used. -/
theorem other_key_undefined {T : ToNumber S} {t : Table S} {l : List (Use S)} {n : Nat} {v : Value S}
    (hm : (Key.other n, v) ∈ t) : life T true t l = none := by
  cases h : life T true t l with
  | none => rfl
  | some _ => exact absurd rfl (((life_iff.1 h).2 rfl).1 _ hm n)

/-- `{ a = { b = true }, b = "12" }` read properly. -/
example : life sampleToNumber true
    [(.str 0, .table [(.str 1, .bool true)]), (.str 1, .str 2)]
    [.getDouble 1, .hasKey 7, .getDictionary 0 [.getBool 1]] = some () := rfl

/-- The inner key is forgotten. -/
example : life sampleToNumber true
    [(.str 0, .table [(.str 1, .bool true)]), (.str 1, .str 2)]
    [.getDouble 1, .hasKey 7, .getDictionary 0 [.hasKey 1]] = none := rfl

/-- Not counting references, this is fine. -/
example : life sampleToNumber false
    [(.str 0, .table [(.str 1, .bool true)]), (.str 1, .str 2)]
    [.getDouble 1, .hasKey 7, .getDictionary 0 [.hasKey 1]] = some () := rfl

/-- A wrong type aborts. -/
example : life sampleToNumber false [(.str 0, .bool true)] [.getString 0] = none := rfl

end Verif.Lua
