import Mathlib.Data.List.Perm.Subperm
import Mathlib.Data.List.Forall2
import Verif.Configuration
import Verif.Props.LuaDictionary

/-!
# What the configuration functions accept and what they make of it
-/

namespace Verif.Config

open Verif.Lua

/-! ## Specification -/

/-- What a value that is not a table stands for. -/
def LeafMeans (T : ToNumber Str) (N : ToText) : Kind → Value Str → Val → Prop
  | .double, v, x => ∃ q, asNumber T v = some q ∧ x = .num q
  | .int, v, x => ∃ q, asNumber T v = some q ∧ x = .int (truncate q)
  | .nonNegativeInt, v, x => ∃ q, asNumber T v = some q ∧ 0 ≤ truncate q ∧ x = .int (truncate q)
  | .bool, v, x => ∃ b, v = .bool b ∧ x = .bool b
  | .string, v, x => ∃ s, (v = .str s ∨ ∃ q, v = .num q ∧ s = N q) ∧ x = .str s
  | .choice ns, v, x => ∃ n ∈ ns, (v = .str (plain n) ∨ ∃ q, v = .num q ∧ plain n = N q) ∧ x = .str (plain n)

/-- What a field is set to: the value under the key; or the default when there is no such key; or the values under the keys
with the numbers 0, 1, … up to the first that is not there. -/
def FieldMeans (P : Value Str → Val → Prop) (t : Table Str) (key : Name) : Mode → List Val → Prop
  | .required, xs => ∃ v x, rawget t (.str (plain key)) = some v ∧ P v x ∧ xs = [x]
  | .optional default, xs => (rawget t (.str (plain key)) = none ∧ xs = default.toList) ∨
      ∃ v x, rawget t (.str (plain key)) = some v ∧ P v x ∧ xs = [x]
  | .numbered, xs => rawget t (.str (numbered key xs.length)) = none ∧
      ∀ (i : Nat) (x : Val), xs[i]? = some x → ∃ v, rawget t (.str (numbered key i)) = some v ∧ P v x

/-- The string is one of the keys that the entry is about. A numbered key needs all the smaller numbers. -/
def WantsOne (t : Table Str) (key : Name) (s : Str) : Mode → Prop
  | .required => s = plain key
  | .optional _ => s = plain key
  | .numbered => ∃ i, s = numbered key i ∧ ∀ j, j ≤ i → rawget t (.str (numbered key j)) ≠ none

/-- The string is a key for one of the entries. -/
def Entries.Wants (t : Table Str) (s : Str) : Entries → Prop
  | .nil => False
  | .cons key _ mode _ rest => WantsOne t key s mode ∨ rest.Wants t s

mutual
/-- What a value stands for. A table stands for a message: all fields are set as the entries say, the checks hold, and (when
the keys are counted) the table has no other keys. -/
def Reader.Means (T : ToNumber Str) (N : ToText) (counted : Bool) : Reader → Value Str → Val → Prop
  | .leaf k, v, x => LeafMeans T N k v x
  | .dict m es ok, v, x => ∃ t fs, v = .table t ∧ x = .msg m fs ∧ es.Mean T N counted t fs ∧ ok fs = true ∧
      (counted = true → PlainKeys t ∧ ∀ s v, (Key.str s, v) ∈ t → T s = none → es.Wants t s)
/-- All fields are set as the entries say. -/
def Entries.Mean (T : ToNumber Str) (N : ToText) (counted : Bool) : Entries → Table Str → Fields → Prop
  | .nil, _, fs => fs = []
  | .cons key field mode r rest, t, fs => ∃ xs fs', fs = (field, xs) :: fs' ∧
      FieldMeans (fun v x => r.Means T N counted v x) t key mode xs ∧ rest.Mean T N counted t fs'
end

/-- The key has a number. -/
def Mode.isNumbered : Mode → Bool
  | .numbered => true
  | _ => false

/-- The keys of the entries, and whether they are numbered. -/
def Entries.slots : Entries → List (Name × Bool)
  | .nil => []
  | .cons key _ mode _ rest => (key, mode.isNumbered) :: rest.slots

mutual
/-- No function reads a key twice. -/
def Reader.distinct : Reader → Bool
  | .leaf _ => true
  | .dict _ es _ => decide es.slots.Nodup && es.distinct
/-- No function that is called for an entry reads a key twice. -/
def Entries.distinct : Entries → Bool
  | .nil => true
  | .cons _ _ _ r rest => r.distinct && rest.distinct
end

/-! ## Reading is what the specification says -/

theorem readLeaf_iff (T : ToNumber Str) (N : ToText) (k : Kind) (v : Value Str) (x : Val) :
    readLeaf T N k v = some x ↔ LeafMeans T N k v x := by
  have ht : ∀ s, asText N v = some s ↔ (v = .str s ∨ ∃ q, v = .num q ∧ s = N q) := by
    intro s
    cases v <;> simp [asText, eq_comm]
  cases k with
  | double =>
    simp only [readLeaf, LeafMeans, Option.map_eq_some_iff]
    simp only [eq_comm]
  | int =>
    simp only [readLeaf, LeafMeans, Option.map_eq_some_iff]
    simp only [eq_comm]
  | nonNegativeInt =>
    simp only [readLeaf, LeafMeans, Option.bind_eq_some_iff]
    refine exists_congr fun q => and_congr_right fun _ => ?_
    split
    · simp [*, eq_comm]
    · simp [*]
  | bool => cases v <;> simp [readLeaf, LeafMeans, eq_comm]
  | string =>
    simp only [readLeaf, LeafMeans, Option.map_eq_some_iff, ht]
    simp only [eq_comm]
  | choice ns =>
    simp only [readLeaf, LeafMeans, Option.bind_eq_some_iff, ht]
    constructor
    · rintro ⟨s, h1, h2⟩
      split at h2
      · rename_i h3
        obtain ⟨n, hn, rfl⟩ := List.mem_map.1 h3
        exact ⟨n, hn, h1, (Option.some.inj h2).symm⟩
      · simp at h2
    · rintro ⟨n, hn, h1, rfl⟩
      exact ⟨plain n, h1, by rw [if_pos (List.mem_map.2 ⟨n, hn, rfl⟩)]⟩

theorem reference_iff {d : Dict Str} {k : Str} {v : Value Str} {d' : Dict Str} (h : reference d k = some (v, d')) :
    rawget d.table (.str k) = some v ∧ Next d d' (fun s => if k = s then 1 else 0) := by
  have h1 := ((reference_spec d k).2 v d' h).1
  obtain ⟨d'', h2, h3⟩ := (reference_spec d k).1 v h1
  rw [h] at h2
  injection h2 with h2
  injection h2 with _ h2
  rw [h2]
  exact ⟨h1, h3⟩

theorem readKeys_some {f : Value Str → Option Val} {l : List Str} {d d' : Dict Str} {xs : List Val}
    (h : readKeys f l d = some (xs, d')) :
    List.Forall₂ (fun k x => ∃ v, rawget d.table (.str k) = some v ∧ f v = some x) l xs ∧
      Next d d' (fun s => l.count s) := by
  induction l generalizing d xs with
  | nil =>
    simp only [readKeys, Option.some.injEq, Prod.mk.injEq] at h
    obtain ⟨rfl, rfl⟩ := h
    exact ⟨.nil, by simpa using Next.refl d⟩
  | cons k l ih =>
    simp only [readKeys, Option.bind_eq_bind, Option.bind_eq_some_iff, Option.some.injEq, Prod.mk.injEq] at h
    obtain ⟨⟨v, d1⟩, h1, x, h2, ⟨xs1, d2⟩, h3, rfl, rfl⟩ := h
    obtain ⟨h4, h5⟩ := reference_iff h1
    obtain ⟨h6, h7⟩ := ih h3
    rw [h5.table] at h6
    refine ⟨.cons ⟨v, h4, h2⟩ h6, ?_⟩
    have h8 := h5.trans h7
    have : (fun s => (k :: l).count s) = fun s => (if k = s then 1 else 0) + l.count s := by
      funext s
      rw [List.count_cons]
      simp only [beq_iff_eq]
      omega
    rw [this]
    exact h8

theorem readKeys_exists {f : Value Str → Option Val} {l : List Str} {d : Dict Str} {xs : List Val}
    (h : List.Forall₂ (fun k x => ∃ v, rawget d.table (.str k) = some v ∧ f v = some x) l xs) :
    ∃ d', readKeys f l d = some (xs, d') := by
  induction l generalizing d xs with
  | nil => cases h; exact ⟨d, rfl⟩
  | cons k l ih =>
    obtain ⟨x, xs1, ⟨v, h1, h2⟩, h3, rfl⟩ := List.forall₂_cons_left_iff.1 h
    obtain ⟨d1, h4, h5⟩ := (reference_spec d k).1 v h1
    rw [← h5.table] at h3
    obtain ⟨d2, h6⟩ := ih h3
    refine ⟨d2, ?_⟩
    simp only [readKeys, Option.bind_eq_bind]
    rw [h4, Option.bind_some]
    rw [h2, Option.bind_some, h6, Option.bind_some]

theorem count_spec (t : Table Str) (key : Name) (fuel i : Nat) :
    i ≤ count t key fuel i ∧ count t key fuel i ≤ i + fuel ∧
      (∀ j, i ≤ j → j < count t key fuel i → hasKey t (numbered key j) = true) ∧
      (count t key fuel i < i + fuel → hasKey t (numbered key (count t key fuel i)) = false) := by
  induction fuel generalizing i with
  | zero => simp only [count]; exact ⟨le_refl _, le_refl _, fun j h1 h2 => by omega, fun h => by omega⟩
  | succ n ih =>
    simp only [count]
    split
    · rename_i h
      obtain ⟨h1, h2, h3, h4⟩ := ih (i + 1)
      refine ⟨by omega, by omega, fun j h5 h6 => ?_, fun h5 => h4 (by omega)⟩
      by_cases h7 : j = i
      · rw [h7]; exact h
      · exact h3 j (by omega) h6
    · rename_i h
      exact ⟨le_refl _, by omega, fun j h1 h2 => by omega, fun _ => by simpa using h⟩

/-- The numbers of the keys: as many as there are entries is enough. -/
theorem count_all (t : Table Str) (key : Name) :
    (∀ j, j < count t key (t.length + 1) 0 → hasKey t (numbered key j) = true) ∧
      hasKey t (numbered key (count t key (t.length + 1) 0)) = false := by
  obtain ⟨-, h2, h3, h4⟩ := count_spec t key (t.length + 1) 0
  refine ⟨fun j h => h3 j (Nat.zero_le _) h, ?_⟩
  by_cases h : count t key (t.length + 1) 0 < 0 + (t.length + 1)
  · exact h4 h
  · exfalso
    have h5 : count t key (t.length + 1) 0 = t.length + 1 := by omega
    have h6 : ((List.range (t.length + 1)).map fun j => Key.str (numbered key j)).Nodup := by
      refine List.Nodup.map (fun a b hab => ?_) List.nodup_range
      have : numbered key a = numbered key b := by injection hab
      simp only [numbered, Str.mk.injEq] at this
      omega
    have h7 : ((List.range (t.length + 1)).map fun j => Key.str (numbered key j)) ⊆ t.map Prod.fst := by
      intro k hk
      obtain ⟨j, hj, rfl⟩ := List.mem_map.1 hk
      have h8 := h3 j (Nat.zero_le _) (by rw [h5]; exact List.mem_range.1 hj)
      rw [hasKey, Option.isSome_iff_exists] at h8
      obtain ⟨v, h8⟩ := h8
      exact rawget_key h8
    have h8 := (List.Nodup.subperm h6 h7).length_le
    simp at h8

/-- All the keys that are read. -/
def Entries.keys (t : Table Str) : Entries → List Str
  | .nil => []
  | .cons key _ mode _ rest => keysRead t key mode ++ rest.keys t

theorem keysRead_slot {t : Table Str} {key : Name} {mode : Mode} {s : Str} (h : s ∈ keysRead t key mode) :
    s.name = key ∧ decide (s.number ≠ 0) = mode.isNumbered := by
  cases mode with
  | required => simp only [keysRead, List.mem_singleton] at h; subst h; simp [plain, Mode.isNumbered]
  | optional x =>
    simp only [keysRead] at h
    split at h
    · simp only [List.mem_singleton] at h; subst h; simp [plain, Mode.isNumbered]
    · simp at h
  | numbered =>
    simp only [keysRead, List.mem_map] at h
    obtain ⟨i, -, rfl⟩ := h
    simp [numbered, Mode.isNumbered]

theorem keys_slot {t : Table Str} {es : Entries} {s : Str} (h : s ∈ es.keys t) :
    (s.name, decide (s.number ≠ 0)) ∈ es.slots := by
  match es with
  | .nil => simp [Entries.keys] at h
  | .cons key field mode r rest =>
    simp only [Entries.keys, List.mem_append] at h
    simp only [Entries.slots, List.mem_cons, Prod.mk.injEq]
    rcases h with h | h
    · exact Or.inl (keysRead_slot h)
    · exact Or.inr (keys_slot h)

theorem keysRead_nodup (t : Table Str) (key : Name) (mode : Mode) : (keysRead t key mode).Nodup := by
  cases mode with
  | required => simp [keysRead]
  | optional x => simp only [keysRead]; split <;> simp
  | numbered =>
    refine List.Nodup.map (fun a b hab => ?_) List.nodup_range
    simp only [numbered, Str.mk.injEq] at hab
    omega

theorem keys_nodup {t : Table Str} {es : Entries} (h : es.slots.Nodup) : (es.keys t).Nodup := by
  match es with
  | .nil => simp [Entries.keys]
  | .cons key field mode r rest =>
    simp only [Entries.slots, List.nodup_cons] at h
    simp only [Entries.keys]
    rw [List.nodup_append]
    refine ⟨keysRead_nodup _ _ _, keys_nodup h.2, ?_⟩
    rintro s h1 _ h2 rfl
    have h3 := keysRead_slot h1
    have h4 := keys_slot h2
    rw [h3.1, h3.2] at h4
    exact h.1 h4

theorem hasKey_false {t : Table Str} {s : Str} : hasKey t s = false ↔ rawget t (.str s) = none := by
  rw [hasKey, Option.isSome_eq_false_iff, Option.isNone_iff_eq_none]

theorem hasKey_true {t : Table Str} {s : Str} : hasKey t s = true ↔ rawget t (.str s) ≠ none := by
  rw [hasKey, Option.isSome_iff_ne_none]

/-- The keys that are read are those that are wanted and there. -/
theorem mem_keysRead {t : Table Str} {key : Name} {mode : Mode} {s : Str} (hs : rawget t (.str s) ≠ none) :
    s ∈ keysRead t key mode ↔ WantsOne t key s mode := by
  cases mode with
  | required => simp [keysRead, WantsOne]
  | optional x =>
    simp only [keysRead, WantsOne]
    split
    · simp
    · rename_i h
      simp only [List.not_mem_nil, false_iff]
      rintro rfl
      exact h (hasKey_true.2 hs)
  | numbered =>
    obtain ⟨h1, h2⟩ := count_all t key
    simp only [keysRead, WantsOne, List.mem_map, List.mem_range]
    constructor
    · rintro ⟨i, hi, rfl⟩
      exact ⟨i, rfl, fun j hj => hasKey_true.1 (h1 j (by omega))⟩
    · rintro ⟨i, rfl, hi⟩
      refine ⟨i, ?_, rfl⟩
      by_contra hc
      exact hi _ (Nat.le_of_not_lt hc) (hasKey_false.1 h2)

theorem mem_keys {t : Table Str} {es : Entries} {s : Str} (hs : rawget t (.str s) ≠ none) :
    s ∈ es.keys t ↔ es.Wants t s := by
  match es with
  | .nil => simp [Entries.keys, Entries.Wants]
  | .cons key field mode r rest => simp only [Entries.keys, Entries.Wants, List.mem_append, mem_keysRead hs, mem_keys hs]

/-- An entry sets its field as the specification says. -/
theorem field_iff {t : Table Str} {key : Name} {mode : Mode} {f : Value Str → Option Val} {P : Value Str → Val → Prop}
    (hf : ∀ v x, f v = some x ↔ P v x) (ys : List Val) :
    FieldMeans P t key mode ys ↔ ∃ xs, List.Forall₂ (fun k x => ∃ v, rawget t (.str k) = some v ∧ f v = some x)
      (keysRead t key mode) xs ∧ ys = fieldValues mode xs := by
  cases mode with
  | required =>
    simp only [FieldMeans, keysRead, fieldValues]
    constructor
    · rintro ⟨v, x, h1, h2, rfl⟩
      exact ⟨[x], .cons ⟨v, h1, (hf v x).2 h2⟩ .nil, rfl⟩
    · rintro ⟨xs, h, rfl⟩
      obtain ⟨x, xs, ⟨v, h1, h2⟩, h3, rfl⟩ := List.forall₂_cons_left_iff.1 h
      cases h3
      exact ⟨v, x, h1, (hf v x).1 h2, rfl⟩
  | optional d =>
    simp only [FieldMeans, keysRead]
    have hv : ∀ x, fieldValues (.optional d) [x] = [x] := by intro x; cases d <;> rfl
    have hn : fieldValues (.optional d) [] = d.toList := by cases d <;> rfl
    constructor
    · rintro (⟨h1, rfl⟩ | ⟨v, x, h1, h2, rfl⟩)
      · rw [if_neg (by rw [hasKey_false.2 h1]; simp)]
        exact ⟨[], .nil, hn.symm⟩
      · rw [if_pos (hasKey_true.2 (by rw [h1]; simp))]
        exact ⟨[x], .cons ⟨v, h1, (hf v x).2 h2⟩ .nil, (hv x).symm⟩
    · rintro ⟨xs, h, rfl⟩
      split at h
      · obtain ⟨x, xs, ⟨v, h1, h2⟩, h3, rfl⟩ := List.forall₂_cons_left_iff.1 h
        cases h3
        exact Or.inr ⟨v, x, h1, (hf v x).1 h2, hv x⟩
      · rename_i h0
        cases h
        exact Or.inl ⟨hasKey_false.1 (by simpa using h0), hn⟩
  | numbered =>
    obtain ⟨h1, h2⟩ := count_all t key
    simp only [FieldMeans, keysRead, fieldValues]
    constructor
    · rintro ⟨h3, h4⟩
      have hlen : count t key (t.length + 1) 0 = ys.length := by
        rcases Nat.lt_trichotomy (count t key (t.length + 1) 0) ys.length with h | h | h
        · obtain ⟨v, hv, -⟩ := h4 _ _ (List.getElem?_eq_getElem h)
          rw [hasKey_false.1 h2] at hv
          simp at hv
        · exact h
        · exact absurd h3 (hasKey_true.1 (h1 _ h))
      refine ⟨ys, ?_, rfl⟩
      rw [List.forall₂_iff_get]
      refine ⟨by simp [hlen], ?_⟩
      intro i hi hi'
      obtain ⟨v, hv, hP⟩ := h4 i _ (List.getElem?_eq_getElem hi')
      refine ⟨v, ?_, (hf _ _).2 ?_⟩
      · simpa using hv
      · simpa using hP
    · rintro ⟨xs, h, rfl⟩
      have hlen : count t key (t.length + 1) 0 = ys.length := by simpa using h.length_eq
      refine ⟨by rw [← hlen]; exact hasKey_false.1 h2, ?_⟩
      intro i x hx
      obtain ⟨hi, rfl⟩ := List.getElem?_eq_some_iff.1 hx
      rw [List.forall₂_iff_get] at h
      obtain ⟨v, hv, hP⟩ := h.2 i (by simpa [hlen] using hi) hi
      refine ⟨v, ?_, (hf _ _).1 ?_⟩
      · simpa using hv
      · simpa using hP

mutual
/-- **C103.** A function accepts a value, and makes the given message from it, exactly if that is what the value stands for. -/
theorem Reader.read_iff (T : ToNumber Str) (N : ToText) (counted : Bool) : ∀ (r : Reader), r.distinct = true →
    ∀ (v : Value Str) (x : Val), r.read T N counted v = some x ↔ r.Means T N counted v x
  | .leaf k, _, v, x => by
    simp only [Reader.read, Reader.Means]
    exact readLeaf_iff T N k v x
  | .dict m es ok, hd, v, x => by
    simp only [Reader.distinct, Bool.and_eq_true, decide_eq_true_eq] at hd
    have hes := Entries.read_spec T N counted es hd.2
    have key : ∀ t d, Next { table := t, counted := counted } d (fun s => (es.keys t).count s) →
        (destroy T d = some () ↔
          (counted = true → PlainKeys t ∧ ∀ s v, (Key.str s, v) ∈ t → T s = none → es.Wants t s)) := by
      intro t d hn
      rw [destroy_spec hn]
      refine imp_congr_right fun _ => and_congr_right fun _ => ?_
      refine forall_congr' fun s => forall_congr' fun v => ?_
      refine imp_congr_right fun hm => imp_congr_right fun _ => ?_
      have hs : rawget t (.str s) ≠ none := by
        intro h
        simp only [rawget, Option.map_eq_none_iff, List.find?_eq_none, decide_eq_true_eq] at h
        exact h _ hm rfl
      rw [← mem_keys hs]
      have h1 := List.nodup_iff_count_le_one.1 (keys_nodup (t := t) hd.1) s
      rw [← List.count_pos_iff]
      omega
    cases v with
    | table t =>
      simp only [Reader.read, Reader.Means, Option.bind_eq_bind, Option.bind_eq_some_iff]
      constructor
      · rintro ⟨⟨fs, d⟩, h1, y, h2, u, h3, h4⟩
        obtain ⟨h5, h6⟩ := (hes { table := t, counted := counted }).1 fs d h1
        simp only [finish] at h2
        split at h2
        · rename_i hok
          injection h2 with h2
          injection h4 with h4
          exact ⟨t, fs, rfl, by rw [← h4, ← h2], h5, hok, (key t d h6).1 h3⟩
        · simp at h2
      · rintro ⟨t', fs, h1, rfl, h2, hok, h3⟩
        injection h1 with h1
        subst h1
        obtain ⟨d, h4⟩ := (hes { table := t, counted := counted }).2 fs h2
        refine ⟨(fs, d), h4, .msg m fs, by simp [finish, hok], (), ?_, rfl⟩
        exact (key t d ((hes { table := t, counted := counted }).1 fs d h4).2).2 h3
    | bool b => simp [Reader.read, Reader.Means]
    | str s => simp [Reader.read, Reader.Means]
    | num q => simp [Reader.read, Reader.Means]
    | other n => simp [Reader.read, Reader.Means]
theorem Entries.read_spec (T : ToNumber Str) (N : ToText) (counted : Bool) : ∀ (es : Entries), es.distinct = true →
    ∀ (d : Dict Str), (∀ fs d', es.read T N counted d = some (fs, d') →
        es.Mean T N counted d.table fs ∧ Next d d' (fun s => (es.keys d.table).count s)) ∧
      (∀ fs, es.Mean T N counted d.table fs → ∃ d', es.read T N counted d = some (fs, d'))
  | .nil, _, d => by
    simp only [Entries.read, Entries.Mean, Entries.keys]
    refine ⟨?_, ?_⟩
    · rintro fs d' h
      simp only [Option.some.injEq, Prod.mk.injEq] at h
      obtain ⟨rfl, rfl⟩ := h
      exact ⟨rfl, by simpa using Next.refl d⟩
    · rintro fs rfl
      exact ⟨d, rfl⟩
  | .cons key field mode r rest, hd, d => by
    simp only [Entries.distinct, Bool.and_eq_true] at hd
    have hr := Reader.read_iff T N counted r hd.1
    have hrest := Entries.read_spec T N counted rest hd.2
    simp only [Entries.read, Entries.Mean, Entries.keys, Option.bind_eq_bind, Option.bind_eq_some_iff]
    constructor
    · rintro fs d' ⟨⟨xs, d1⟩, h1, ⟨fs1, d2⟩, h2, h3⟩
      simp only [Option.some.injEq, Prod.mk.injEq] at h3
      obtain ⟨rfl, rfl⟩ := h3
      obtain ⟨h4, h5⟩ := readKeys_some h1
      obtain ⟨h6, h7⟩ := (hrest d1).1 fs1 d2 h2
      rw [h5.table] at h6 h7
      refine ⟨⟨_, fs1, rfl, (field_iff hr _).2 ⟨xs, h4, rfl⟩, h6⟩, ?_⟩
      have h8 := h5.trans h7
      simp only [List.count_append]
      exact h8
    · rintro fs ⟨ys, fs1, rfl, h1, h2⟩
      obtain ⟨xs, h3, rfl⟩ := (field_iff hr _).1 h1
      obtain ⟨d1, h4⟩ := readKeys_exists h3
      have h5 := (readKeys_some h4).2
      rw [← h5.table] at h2
      obtain ⟨d2, h6⟩ := (hrest d1).2 fs1 h2
      exact ⟨d2, (xs, d1), h4, (fs1, d2), h6, rfl⟩
end

/-! ## The messages are what the .proto files declare -/

/-- The value has the type that is declared for the field (for one of the values of a repeated field). A message has all fields
that are declared, except those of messages that are not part of the configuration, and no others; a field that is not repeated
has at most one value. -/
inductive Typed : PType → Val → Prop
  | double (q : ℚ) : Typed .double (.num q)
  | float (q : ℚ) : Typed .float (.num q)
  | floatInt (i : Int) : Typed .float (.int i)
  | int32 (i : Int) : Typed .int32 (.int i)
  | bool (b : Bool) : Typed .bool (.bool b)
  | string (s : Str) : Typed .string (.str s)
  | enum {e : Enum} {n : Name} (h : n ∈ enumValues e) : Typed (.enum e) (.str (plain n))
  | repeated {t : PType} {x : Val} (h : Typed t x) : Typed (.repeated t) x
  | msg {m : Msg} {fs : Fields}
      (all : ∀ n ty, (n, ty) ∈ fieldsOf m → ty ≠ .elsewhere → n ∈ fs.map Prod.fst)
      (once : (fs.map Prod.fst).Nodup)
      (declared : ∀ n ∈ fs.map Prod.fst, ∃ ty, (n, ty) ∈ fieldsOf m ∧ ty ≠ .elsewhere)
      (single : ∀ n xs ty, (n, xs) ∈ fs → (n, ty) ∈ fieldsOf m → (∀ t, ty ≠ .repeated t) → xs.length ≤ 1)
      (typed : ∀ n xs ty, (n, xs) ∈ fs → (n, ty) ∈ fieldsOf m → ∀ x ∈ xs, Typed ty x) : Typed (.msg m) (.msg m fs)

/-- What the `Get…` functions deliver can be stored in a field of the type. -/
def Kind.delivers : Kind → PType → Bool
  | .double, ty => decide (ty = .double ∨ ty = .float)
  | .int, ty => decide (ty = .int32 ∨ ty = .float)
  | .nonNegativeInt, ty => decide (ty = .int32 ∨ ty = .float)
  | .bool, ty => decide (ty = .bool)
  | .string, ty => decide (ty = .string)
  | .choice ns, .enum e => decide (ns = enumValues e)
  | .choice _, _ => false

/-- What the function delivers can be stored in a field of the type. -/
def Reader.delivers : Reader → PType → Bool
  | .leaf k, ty => k.delivers ty
  | .dict m _ _, ty => decide (ty = .msg m)

/-- The same with the number of values and the default. -/
def suits (r : Reader) : Mode → PType → Bool
  | .required, ty => r.delivers ty
  | .optional none, ty => r.delivers ty
  | .optional (some (.bool _)), ty => r.delivers ty && decide (ty = .bool)
  | .optional _, _ => false
  | .numbered, .repeated ty => r.delivers ty
  | .numbered, _ => false

/-- The fields that are set. -/
def Entries.fields : Entries → List Name
  | .nil => []
  | .cons _ field _ _ rest => field :: rest.fields

mutual
/-- The functions set exactly the declared fields, once each, with what can be stored there. -/
def Reader.complete : Reader → Bool
  | .leaf _ => true
  | .dict m es _ => decide es.fields.Nodup &&
      (fieldsOf m).all (fun p => decide (p.2 = .elsewhere) || decide (p.1 ∈ es.fields)) && es.complete m
/-- Every entry sets a declared field, with what can be stored there. -/
def Entries.complete (m : Msg) : Entries → Bool
  | .nil => true
  | .cons _ field mode r rest => (fieldsOf m).any (fun p => decide (p.1 = field ∧ p.2 ≠ .elsewhere)) &&
      (fieldsOf m).all (fun p => decide (p.1 ≠ field) || suits r mode p.2) && r.complete && rest.complete m
end

theorem mean_fields {T : ToNumber Str} {N : ToText} {counted : Bool} {es : Entries} {t : Table Str} {fs : Fields}
    (h : es.Mean T N counted t fs) : fs.map Prod.fst = es.fields := by
  match es with
  | .nil => simp only [Entries.Mean] at h; subst h; rfl
  | .cons key field mode r rest =>
    simp only [Entries.Mean] at h
    obtain ⟨xs, fs', rfl, -, h2⟩ := h
    simp only [Entries.fields, List.map_cons, mean_fields h2]

mutual
theorem Reader.means_typed (T : ToNumber Str) (N : ToText) (counted : Bool) : ∀ (r : Reader), r.complete = true →
    ∀ (v : Value Str) (x : Val), r.Means T N counted v x → ∀ ty, r.delivers ty = true → Typed ty x
  | .leaf k, _, v, x, h, ty, hty => by
    simp only [Reader.Means] at h
    simp only [Reader.delivers] at hty
    cases k with
    | double =>
      simp only [LeafMeans] at h
      obtain ⟨q, -, rfl⟩ := h
      simp only [Kind.delivers, decide_eq_true_eq] at hty
      rcases hty with rfl | rfl
      · exact .double q
      · exact .float q
    | int =>
      simp only [LeafMeans] at h
      obtain ⟨q, -, rfl⟩ := h
      simp only [Kind.delivers, decide_eq_true_eq] at hty
      rcases hty with rfl | rfl
      · exact .int32 _
      · exact .floatInt _
    | nonNegativeInt =>
      simp only [LeafMeans] at h
      obtain ⟨q, -, -, rfl⟩ := h
      simp only [Kind.delivers, decide_eq_true_eq] at hty
      rcases hty with rfl | rfl
      · exact .int32 _
      · exact .floatInt _
    | bool =>
      simp only [LeafMeans] at h
      obtain ⟨b, -, rfl⟩ := h
      simp only [Kind.delivers, decide_eq_true_eq] at hty
      subst hty
      exact .bool b
    | string =>
      simp only [LeafMeans] at h
      obtain ⟨s, -, rfl⟩ := h
      simp only [Kind.delivers, decide_eq_true_eq] at hty
      subst hty
      exact .string s
    | choice ns =>
      simp only [LeafMeans] at h
      obtain ⟨n, hn, -, rfl⟩ := h
      cases ty with
      | enum e =>
        simp only [Kind.delivers, decide_eq_true_eq] at hty
        subst hty
        exact .enum hn
      | _ => simp [Kind.delivers] at hty
  | .dict m es ok, hc, v, x, h, ty, hty => by
    simp only [Reader.delivers, decide_eq_true_eq] at hty
    subst hty
    simp only [Reader.Means] at h
    obtain ⟨t, fs, rfl, rfl, h1, -, -⟩ := h
    simp only [Reader.complete, Bool.and_eq_true, decide_eq_true_eq, List.all_eq_true, Bool.or_eq_true] at hc
    obtain ⟨⟨hc1, hc2⟩, hc3⟩ := hc
    have hf := mean_fields h1
    obtain ⟨h2, h3⟩ := Entries.mean_typed T N counted m es hc3 t fs h1
    refine .msg ?_ (by rw [hf]; exact hc1) ?_ ?_ ?_
    · intro n ty hm hne
      rw [hf]
      exact (hc2 (n, ty) hm).resolve_left hne
    · intro n hn
      obtain ⟨⟨n', xs⟩, hm, rfl⟩ := List.mem_map.1 hn
      exact h2 n' xs hm
    · intro n xs ty hm hd hr
      exact (h3 n xs ty hm hd).1 hr
    · intro n xs ty hm hd
      exact (h3 n xs ty hm hd).2
theorem Entries.mean_typed (T : ToNumber Str) (N : ToText) (counted : Bool) (m : Msg) : ∀ (es : Entries),
    es.complete m = true → ∀ (t : Table Str) (fs : Fields), es.Mean T N counted t fs →
    (∀ n xs, (n, xs) ∈ fs → ∃ ty, (n, ty) ∈ fieldsOf m ∧ ty ≠ .elsewhere) ∧
    (∀ n xs ty, (n, xs) ∈ fs → (n, ty) ∈ fieldsOf m → ((∀ t, ty ≠ .repeated t) → xs.length ≤ 1) ∧ ∀ x ∈ xs, Typed ty x)
  | .nil, _, t, fs, h => by
    simp only [Entries.Mean] at h
    subst h
    exact ⟨fun n xs hm => by simp at hm, fun n xs ty hm => by simp at hm⟩
  | .cons key field mode r rest, hc, t, fs, h => by
    simp only [Entries.complete, Bool.and_eq_true, decide_eq_true_eq, List.all_eq_true, List.any_eq_true,
      Bool.or_eq_true] at hc
    obtain ⟨⟨⟨hc1, hc2⟩, hc3⟩, hc4⟩ := hc
    simp only [Entries.Mean] at h
    obtain ⟨ys, fs', rfl, h1, h2⟩ := h
    have hr := Reader.means_typed T N counted r hc3
    obtain ⟨h3, h4⟩ := Entries.mean_typed T N counted m rest hc4 t fs' h2
    constructor
    · intro n xs hm
      rcases List.mem_cons.1 hm with hm | hm
      · injection hm with hm _
        obtain ⟨⟨n', ty⟩, hp, rfl, hne⟩ := hc1
        exact ⟨ty, by rw [hm]; exact hp, hne⟩
      · exact h3 n xs hm
    · intro n xs ty hm hd
      rcases List.mem_cons.1 hm with hm | hm
      · injection hm with hm1 hm2
        subst hm1 hm2
        have hs := (hc2 (n, ty) hd).resolve_left (by simp)
        cases mode with
        | required =>
          obtain ⟨v, x, -, hx, rfl⟩ := h1
          simp only [suits] at hs
          exact ⟨fun _ => by simp, fun y hy => by rw [List.mem_singleton.1 hy]; exact hr v x hx ty hs⟩
        | optional dflt =>
          rcases h1 with ⟨-, rfl⟩ | ⟨v, x, -, hx, rfl⟩
          · cases dflt with
            | none => exact ⟨fun _ => by simp, fun y hy => by simp at hy⟩
            | some z =>
              cases z with
              | bool b =>
                simp only [suits, Bool.and_eq_true, decide_eq_true_eq] at hs
                rw [hs.2]
                exact ⟨fun _ => by simp, fun y hy => by
                  simp only [Option.toList_some, List.mem_singleton] at hy
                  rw [hy]
                  exact .bool b⟩
              | _ => simp [suits] at hs
          · have hs' : r.delivers ty = true := by
              cases dflt with
              | none => exact hs
              | some z =>
                cases z with
                | bool b => simp only [suits, Bool.and_eq_true] at hs; exact hs.1
                | _ => simp [suits] at hs
            exact ⟨fun _ => by simp, fun y hy => by rw [List.mem_singleton.1 hy]; exact hr v x hx ty hs'⟩
        | numbered =>
          cases ty with
          | repeated ty =>
            simp only [suits] at hs
            refine ⟨fun hn => absurd rfl (hn ty), fun y hy => .repeated ?_⟩
            obtain ⟨i, hi⟩ := List.mem_iff_getElem?.1 hy
            obtain ⟨v, -, hx⟩ := h1.2 i y hi
            exact hr v y hx ty hs
          | _ => simp [suits] at hs
      · exact h4 n xs ty hm hd
end

/-- The functions that are called from outside read no key twice, and neither do the functions that they call. -/
theorem distinct_all : mapBuilderServer.distinct = true ∧ trajectoryBuilder.distinct = true := by
  constructor <;> decide +kernel

/-- The functions that are called from outside, and those that they call, set exactly the declared fields. -/
theorem complete_all : mapBuilderServer.complete = true ∧ trajectoryBuilder.complete = true := by
  constructor <;> decide +kernel

/-- **C103.** Every message that is made from a configuration has exactly the declared fields, with values of the declared types,
at every level. -/
theorem read_typed {T : ToNumber Str} {N : ToText} {counted : Bool} {v : Value Str} {x : Val} :
    (mapBuilderServer.read T N counted v = some x → Typed (.msg .MapBuilderServerOptions) x) ∧
      (trajectoryBuilder.read T N counted v = some x → Typed (.msg .TrajectoryBuilderOptions) x) := by
  constructor
  · intro h
    refine Reader.means_typed T N counted _ complete_all.1 v x ((Reader.read_iff T N counted _ distinct_all.1 v x).1 h) _ ?_
    decide +kernel
  · intro h
    refine Reader.means_typed T N counted _ complete_all.2 v x ((Reader.read_iff T N counted _ distinct_all.2 v x).1 h) _ ?_
    decide +kernel

/-! ## Keys and fields have the same names -/

/-- The keys whose field has a different name. -/
def renamed : List (Name × Name) :=
  [(.probability_grid_range_data_inserter, .probability_grid_range_data_inserter_options_2d),
   (.tsdf_range_data_inserter, .tsdf_range_data_inserter_options_2d),
   (.range_data_inserter, .range_data_inserter_options),
   (.adaptive_voxel_filter, .adaptive_voxel_filter_options),
   (.loop_closure_adaptive_voxel_filter, .loop_closure_adaptive_voxel_filter_options),
   (.high_resolution_adaptive_voxel_filter, .high_resolution_adaptive_voxel_filter_options),
   (.low_resolution_adaptive_voxel_filter, .low_resolution_adaptive_voxel_filter_options),
   (.real_time_correlative_scan_matcher, .real_time_correlative_scan_matcher_options),
   (.ceres_scan_matcher, .ceres_scan_matcher_options), (.motion_filter, .motion_filter_options),
   (.pose_extrapolator, .pose_extrapolator_options), (.submaps, .submaps_options),
   (.trajectory_builder_2d, .trajectory_builder_2d_options), (.trajectory_builder_3d, .trajectory_builder_3d_options),
   (.fast_correlative_scan_matcher, .fast_correlative_scan_matcher_options),
   (.fast_correlative_scan_matcher_3d, .fast_correlative_scan_matcher_options_3d),
   (.ceres_scan_matcher_3d, .ceres_scan_matcher_options_3d), (.constraint_builder, .constraint_builder_options),
   (.optimization_problem, .optimization_problem_options), (.pose_graph, .pose_graph_options),
   (.map_builder, .map_builder_options)]

mutual
/-- Every key is read for the field of its name. -/
def Reader.sameNames : Reader → Bool
  | .leaf _ => true
  | .dict _ es _ => es.sameNames
/-- Every key is read for the field of its name. -/
def Entries.sameNames : Entries → Bool
  | .nil => true
  | .cons key field _ r rest => decide ((renamed.lookup key).getD key = field) && r.sameNames && rest.sameNames
end

/-- **C103.** At every level the key of a field is the name of the field, without the `_options` in the 21 cases of
`renamed`. -/
theorem same_names : mapBuilderServer.sameNames = true ∧ trajectoryBuilder.sameNames = true := by
  constructor <;> decide +kernel

/-! ## What aborts -/

/-- The entry is one of the list. -/
def Entries.Has (key field : Name) (mode : Mode) (r : Reader) : Entries → Prop
  | .nil => False
  | .cons key' field' mode' r' rest => (key' = key ∧ field' = field ∧ mode' = mode ∧ r' = r) ∨ rest.Has key field mode r

theorem mean_has {T : ToNumber Str} {N : ToText} {counted : Bool} {es : Entries} {t : Table Str} {fs : Fields}
    (h : es.Mean T N counted t fs) {key field : Name} {mode : Mode} {r : Reader} (hh : es.Has key field mode r) :
    ∃ xs, (field, xs) ∈ fs ∧ FieldMeans (fun v x => r.Means T N counted v x) t key mode xs := by
  match es with
  | .nil => simp [Entries.Has] at hh
  | .cons key' field' mode' r' rest =>
    simp only [Entries.Mean] at h
    obtain ⟨xs, fs', rfl, h1, h2⟩ := h
    simp only [Entries.Has] at hh
    rcases hh with ⟨rfl, rfl, rfl, rfl⟩ | hh
    · exact ⟨xs, by simp, h1⟩
    · obtain ⟨ys, h3, h4⟩ := mean_has h2 hh
      exact ⟨ys, by simp [h3], h4⟩

theorem has_distinct {es : Entries} (h : es.distinct = true) {key field : Name} {mode : Mode} {r : Reader}
    (hh : es.Has key field mode r) : r.distinct = true := by
  match es with
  | .nil => simp [Entries.Has] at hh
  | .cons key' field' mode' r' rest =>
    simp only [Entries.distinct, Bool.and_eq_true] at h
    simp only [Entries.Has] at hh
    rcases hh with ⟨rfl, rfl, rfl, rfl⟩ | hh
    · exact h.1
    · exact has_distinct h.2 hh

section
variable {T : ToNumber Str} {N : ToText} {counted : Bool} {m : Msg} {es : Entries} {ok : Fields → Bool} {t : Table Str}

theorem read_none_of (hd : (Reader.dict m es ok).distinct = true)
    (h : ∀ x, ¬ (Reader.dict m es ok).Means T N counted (.table t) x) :
    (Reader.dict m es ok).read T N counted (.table t) = none := by
  cases hr : (Reader.dict m es ok).read T N counted (.table t) with
  | none => rfl
  | some x => exact absurd ((Reader.read_iff T N counted _ hd _ x).1 hr) (h x)

/-- **C103.** A key that no entry is about aborts: a misspelt option is not ignored. -/
theorem unknown_key_aborts (hd : (Reader.dict m es ok).distinct = true) {s : Str} {v : Value Str}
    (hm : (Key.str s, v) ∈ t) (hs : T s = none) (hw : ¬ es.Wants t s) :
    (Reader.dict m es ok).read T N true (.table t) = none := by
  refine read_none_of hd fun x h => ?_
  simp only [Reader.Means] at h
  obtain ⟨t', fs, h1, -, -, -, h2⟩ := h
  injection h1 with h1
  subst h1
  exact hw ((h2 trivial).2 s v hm hs)

/-- A key that is required and not there aborts. -/
theorem missing_key_aborts (hd : (Reader.dict m es ok).distinct = true) {key field : Name} {r : Reader}
    (hh : es.Has key field .required r) (hm : rawget t (.str (plain key)) = none) :
    (Reader.dict m es ok).read T N counted (.table t) = none := by
  refine read_none_of hd fun x h => ?_
  simp only [Reader.Means] at h
  obtain ⟨t', fs, h1, -, h2, -, -⟩ := h
  injection h1 with h1
  subst h1
  obtain ⟨xs, -, v, x, h3, -, -⟩ := mean_has h2 hh
  rw [hm] at h3
  simp at h3

/-- What aborts for a part of the configuration aborts for the whole. -/
theorem part_aborts (hd : (Reader.dict m es ok).distinct = true) {key field : Name} {mode : Mode} {r : Reader}
    (hh : es.Has key field mode r) (hmode : mode ≠ .numbered) {v : Value Str}
    (hm : rawget t (.str (plain key)) = some v) (hr : r.read T N counted v = none) :
    (Reader.dict m es ok).read T N counted (.table t) = none := by
  refine read_none_of hd fun x h => ?_
  simp only [Reader.Means] at h
  obtain ⟨t', fs, h1, -, h2, -, -⟩ := h
  injection h1 with h1
  subst h1
  simp only [Reader.distinct, Bool.and_eq_true] at hd
  have hrd := has_distinct hd.2 hh
  have no : ∀ x, ¬ r.Means T N counted v x := by
    intro x hx
    rw [← Reader.read_iff T N counted r hrd, hr] at hx
    simp at hx
  obtain ⟨xs, -, h3⟩ := mean_has h2 hh
  cases mode with
  | required =>
    obtain ⟨v', x, h4, h5, -⟩ := h3
    rw [hm] at h4
    injection h4 with h4
    subst h4
    exact no x h5
  | optional d =>
    rcases h3 with ⟨h4, -⟩ | ⟨v', x, h4, h5, -⟩
    · rw [hm] at h4; simp at h4
    · rw [hm] at h4
      injection h4 with h4
      subst h4
      exact no x h5
  | numbered => exact hmode rfl
end

/-! ## The files that come with the library -/

mutual
/-- A sufficient condition with a result, for values in which numbers are numbers and strings are strings. -/
def Reader.eval : Reader → Value Str → Option Val
  | .leaf k, v =>
    match k, v with
    | .double, .num q => some (.num q)
    | .int, .num q => some (.int (truncate q))
    | .nonNegativeInt, .num q => if 0 ≤ truncate q then some (.int (truncate q)) else none
    | .bool, .bool b => some (.bool b)
    | .string, .str s => some (.str s)
    | .choice ns, .str s => if s ∈ ns.map plain then some (.str s) else none
    | _, _ => none
  | .dict m es ok, .table t =>
    if t.all (fun e => match e.1 with | .str s => decide (s ∈ es.keys t) | _ => false) then
      match es.eval t with
      | none => none
      | some fs => if ok fs then some (.msg m fs) else none
    else none
  | .dict _ _ _, _ => none
/-- The fields. -/
def Entries.eval : Entries → Table Str → Option Fields
  | .nil, _ => some []
  | .cons key field mode r rest, t =>
    match (keysRead t key mode).mapM (fun k => (rawget t (.str k)).bind fun v => r.eval v), rest.eval t with
    | some xs, some fs => some ((field, fieldValues mode xs) :: fs)
    | _, _ => none
end

theorem mapM_forall₂ {α β : Type} {f : α → Option β} {l : List α} {xs : List β} (h : l.mapM f = some xs) :
    List.Forall₂ (fun k x => f k = some x) l xs := by
  induction l generalizing xs with
  | nil => simp at h; subst h; exact .nil
  | cons k l ih =>
    simp only [List.mapM_cons, Option.bind_eq_bind, Option.bind_eq_some_iff, Option.pure_def, Option.some.injEq] at h
    obtain ⟨x, h1, ys, h2, rfl⟩ := h
    exact .cons h1 (ih h2)

mutual
theorem Reader.eval_read (T : ToNumber Str) (N : ToText) (counted : Bool) : ∀ (r : Reader), r.distinct = true →
    ∀ (v : Value Str) (x : Val), r.eval v = some x → r.read T N counted v = some x
  | .leaf k, _, v, x, h => by
    simp only [Reader.eval] at h
    simp only [Reader.read]
    cases k <;> cases v <;> simp_all [readLeaf, asNumber, asText]
  | .dict m es ok, hd, v, x, h => by
    rw [Reader.read_iff T N counted _ hd]
    simp only [Reader.distinct, Bool.and_eq_true, decide_eq_true_eq] at hd
    cases v with
    | table t =>
      simp only [Reader.eval] at h
      split at h
      · rename_i hk
        split at h
        · simp at h
        · rename_i fs hfs
          split at h
          · rename_i hok
            injection h with h
            simp only [Reader.Means]
            refine ⟨t, fs, rfl, h.symm, Entries.eval_mean T N counted es hd.2 t fs hfs, hok, fun _ => ?_⟩
            simp only [List.all_eq_true] at hk
            refine ⟨fun e he n hn => ?_, fun s v hm _ => ?_⟩
            · have := hk e he
              rw [hn] at this
              simp at this
            · have := hk _ hm
              simp only [decide_eq_true_eq] at this
              refine (mem_keys ?_).1 this
              intro hnone
              simp only [rawget, Option.map_eq_none_iff, List.find?_eq_none, decide_eq_true_eq] at hnone
              exact hnone _ hm rfl
          · simp at h
      · simp at h
    | bool b => simp [Reader.eval] at h
    | str s => simp [Reader.eval] at h
    | num q => simp [Reader.eval] at h
    | other n => simp [Reader.eval] at h
theorem Entries.eval_mean (T : ToNumber Str) (N : ToText) (counted : Bool) : ∀ (es : Entries), es.distinct = true →
    ∀ (t : Table Str) (fs : Fields), es.eval t = some fs → es.Mean T N counted t fs
  | .nil, _, t, fs, h => by
    simp only [Entries.eval, Option.some.injEq] at h
    simp only [Entries.Mean]
    exact h.symm
  | .cons key field mode r rest, hd, t, fs, h => by
    simp only [Entries.distinct, Bool.and_eq_true] at hd
    simp only [Entries.eval] at h
    split at h
    · rename_i xs fs' h1 h2
      injection h with h
      simp only [Entries.Mean]
      refine ⟨_, fs', h.symm, ?_, Entries.eval_mean T N counted rest hd.2 t fs' h2⟩
      refine (field_iff (Reader.read_iff T N counted r hd.1) _).2 ⟨xs, ?_, rfl⟩
      refine (mapM_forall₂ h1).imp ?_
      intro k x hk
      rw [Option.bind_eq_some_iff] at hk
      obtain ⟨v, hv, hx⟩ := hk
      exact ⟨v, hv, Reader.eval_read T N counted r hd.1 v x hx⟩
    · simp at h
end

theorem accepted_of_eval {T : ToNumber Str} {N : ToText} {counted : Bool} {r : Reader} (hd : r.distinct = true)
    {v : Value Str} (h : (r.eval v).isSome = true) : ∃ x, r.read T N counted v = some x := by
  rw [Option.isSome_iff_exists] at h
  obtain ⟨x, hx⟩ := h
  exact ⟨x, Reader.eval_read T N counted r hd v x hx⟩

/-- **C103.** The configuration for trajectories is accepted as it comes. -/
theorem trajectory_builder_accepted (T : ToNumber Str) (N : ToText) (counted : Bool) (rad : ℚ → ℚ) :
    ∃ x, trajectoryBuilder.read T N counted (trajectoryBuilderConfig rad) = some x :=
  accepted_of_eval distinct_all.2 (by with_unfolding_all rfl)

/-- **C103.** The configuration of the server is accepted when exactly one kind of trajectory builders is switched on. -/
theorem server_accepted (T : ToNumber Str) (N : ToText) (counted : Bool) (rad : ℚ → ℚ) (use2d use3d : Bool)
    (h : use2d ≠ use3d) : ∃ x, mapBuilderServer.read T N counted (serverConfig rad use2d use3d) = some x := by
  refine accepted_of_eval distinct_all.1 ?_
  cases use2d <;> cases use3d
  · exact absurd rfl h
  · rfl
  · rfl
  · exact absurd rfl h

/-- The same for the configuration of a map builder. -/
theorem map_builder_accepted (T : ToNumber Str) (N : ToText) (counted : Bool) (rad : ℚ → ℚ) (use2d use3d : Bool)
    (h : use2d ≠ use3d) : ∃ x, mapBuilder.read T N counted (mapBuilderConfig rad use2d use3d) = some x := by
  refine accepted_of_eval (by decide +kernel) ?_
  cases use2d <;> cases use3d
  · exact absurd rfl h
  · rfl
  · rfl
  · exact absurd rfl h

/-- **C103.** Options for a map builder are made only if exactly one kind of trajectory builders is switched on. -/
theorem one_kind {T : ToNumber Str} {N : ToText} {counted : Bool} {t : Table Str} {x : Val}
    (h : mapBuilder.read T N counted (.table t) = some x) :
    ∃ b, rawget t (.str (plain .use_trajectory_builder_2d)) = some (.bool b) ∧
      rawget t (.str (plain .use_trajectory_builder_3d)) = some (.bool !b) := by
  rw [Reader.read_iff T N counted _ (by decide +kernel)] at h
  simp only [mapBuilder, entries, need, Reader.Means, Entries.Mean, FieldMeans, LeafMeans] at h
  obtain ⟨t', fs, h1, -, ⟨xs2, fs2, rfl, ⟨v2, x2, h2, ⟨b2, rfl, rfl⟩, rfl⟩, xs3, fs3, rfl,
    ⟨v3, x3, h3, ⟨b3, rfl, rfl⟩, rfl⟩, -⟩, hok, -⟩ := h
  injection h1 with h1
  subst h1
  refine ⟨b2, h2, ?_⟩
  rw [h3]
  simp only [boolAt, values, List.find?_cons, decide_true, Option.map_some, Option.getD_some, bne_iff_ne] at hok
  have h4 : decide (Name.use_trajectory_builder_2d = Name.use_trajectory_builder_3d) = false := by decide
  rw [h4] at hok
  simp only [Option.map_some, Option.getD_some] at hok
  cases b2 <;> cases b3 <;> simp_all

/-- **C103.** The configuration of a map builder is not accepted as it comes: both kinds are switched off there. -/
theorem default_map_builder_aborts (T : ToNumber Str) (N : ToText) (counted : Bool) (rad : ℚ → ℚ) :
    mapBuilder.read T N counted (mapBuilderConfig rad false false) = none := by
  cases h : mapBuilder.read T N counted (mapBuilderConfig rad false false) with
  | none => rfl
  | some x =>
    obtain ⟨b, h1, h2⟩ := one_kind h
    have h3 : b = false := by
      have h5 : some (Value.bool (S := Str) b) = some (.bool false) := h1.symm.trans rfl
      injection h5 with h5
      injection h5
    have h6 : some (Value.bool (S := Str) (!b)) = some (.bool false) := h2.symm.trans rfl
    injection h6 with h6
    injection h6 with h6
    rw [h3] at h6
    simp at h6

/-- **C103.** A gap in the numbers aborts: `occupied_space_weight_2` without `occupied_space_weight_1`. -/
theorem gap_aborts {T : ToNumber Str} {N : ToText} {t : Table Str} {i j : Nat} {v : Value Str} (hij : i < j)
    (hi : rawget t (.str (numbered .occupied_space_weight i)) = none)
    (hj : (Key.str (numbered .occupied_space_weight j), v) ∈ t) (hT : T (numbered .occupied_space_weight j) = none) :
    ceresScanMatcher3D.read T N true (.table t) = none := by
  refine unknown_key_aborts (by decide +kernel) hj hT ?_
  simp only [entries, need, Entries.Wants, WantsOne]
  rintro (⟨k, h1, h2⟩ | ⟨k, h1, -⟩ | h | h | h | h | h)
  · simp only [numbered, Str.mk.injEq] at h1
    exact h2 i (by omega) hi
  all_goals simp [numbered, plain] at *

/-- **C103.** Submaps are made only if the kind of grid and the kind of inserter belong together. -/
theorem kinds_match {T : ToNumber Str} {N : ToText} {counted : Bool} {t : Table Str} {x : Val}
    (h : submaps2D.read T N counted (.table t) = some x) : ∃ fs gs is,
      x = .msg .SubmapsOptions2D fs ∧ (.grid_options_2d, [.msg .GridOptions2D gs]) ∈ fs ∧
      (.range_data_inserter_options, [.msg .RangeDataInserterOptions is]) ∈ fs ∧
      (((.grid_type, [.str (plain .PROBABILITY_GRID)]) ∈ gs ∧
          (.range_data_inserter_type, [.str (plain .PROBABILITY_GRID_INSERTER_2D)]) ∈ is) ∨
        ((.grid_type, [.str (plain .TSDF)]) ∈ gs ∧
          (.range_data_inserter_type, [.str (plain .TSDF_INSERTER_2D)]) ∈ is)) := by
  rw [Reader.read_iff T N counted _ (by decide +kernel)] at h
  simp only [submaps2D, grid2D, rangeDataInserter, entries, need, Reader.Means, Entries.Mean, FieldMeans, LeafMeans] at h
  obtain ⟨t', fs, -, rfl, ⟨xs1, fs1, rfl, ⟨v1, x1, -, ⟨q, -, -, rfl⟩, rfl⟩, xs2, fs2, rfl,
    ⟨v2, x2, -, ⟨t2, gs, -, rfl, ⟨ys, gs1, rfl, ⟨w, y, -, ⟨n, hn, -, rfl⟩, rfl⟩, -⟩, -⟩, rfl⟩, xs3, fs3, rfl,
    ⟨v3, x3, -, ⟨t3, is, -, rfl, ⟨zs, is1, rfl, ⟨w', z, -, ⟨n', hn', -, rfl⟩, rfl⟩, -⟩, -⟩, rfl⟩, -⟩, hok, -⟩ := h
  refine ⟨_, _, _, rfl, List.mem_cons_of_mem _ List.mem_cons_self,
    List.mem_cons_of_mem _ (List.mem_cons_of_mem _ List.mem_cons_self), ?_⟩
  have e1 : decide (Name.num_range_data = Name.grid_options_2d) = false := by decide
  have e2 : decide (Name.num_range_data = Name.range_data_inserter_options) = false := by decide
  have e3 : decide (Name.grid_options_2d = Name.range_data_inserter_options) = false := by decide
  simp only [submaps2DOk, nameAt, msgAt, values, List.find?_cons, e1, e2, e3, decide_true, Option.map_some,
    Option.getD_some, Bool.and_eq_true, Bool.or_eq_true, decide_eq_true_eq, Option.some.injEq, plain] at hok
  rcases hok.1 with ⟨h1, h2⟩ | ⟨h1, h2⟩
  · subst h1 h2
    exact Or.inl ⟨List.mem_cons_self, List.mem_cons_self⟩
  · subst h1 h2
    exact Or.inr ⟨List.mem_cons_self, List.mem_cons_self⟩

/-- There is a number under the key, and it has the property. -/
def Holds (T : ToNumber Str) (t : Table Str) (key : Name) (p : ℚ → Prop) : Prop :=
  ∃ v q, rawget t (.str (plain key)) = some v ∧ asNumber T v = some q ∧ p q

theorem values_of_mem {fs : Fields} (hn : (fs.map Prod.fst).Nodup) {n : Name} {xs : List Val} (h : (n, xs) ∈ fs) :
    values fs n = xs := by
  induction fs with
  | nil => simp at h
  | cons e l ih =>
    simp only [List.map_cons, List.nodup_cons] at hn
    rcases List.mem_cons.1 h with h | h
    · subst h; simp [values]
    · have hne : e.1 ≠ n := fun he => hn.1 (by rw [he]; exact List.mem_map.2 ⟨_, h, rfl⟩)
      have := ih hn.2 h
      simp only [values, List.find?_cons, hne, decide_false] at this ⊢
      exact this

section
variable {T : ToNumber Str} {N : ToText} {counted : Bool} {m : Msg} {es : Entries} {ok : Fields → Bool} {t : Table Str}
  {x : Val}

theorem numbers_of_read (hd : (Reader.dict m es ok).distinct = true) (hn : es.fields.Nodup)
    (h : (Reader.dict m es ok).read T N counted (.table t) = some x) : ∃ fs, ok fs = true ∧
      (∀ key, es.Has key key .required (.leaf .double) → ∀ p : ℚ → Prop, p (numAt fs key) → Holds T t key p) ∧
      (∀ key, es.Has key key .required (.leaf .int) ∨ es.Has key key .required (.leaf .nonNegativeInt) →
        ∀ p : ℚ → Prop, p (numAt fs key) → Holds T t key (fun q => p (truncate q))) := by
  rw [Reader.read_iff T N counted _ hd] at h
  simp only [Reader.Means] at h
  obtain ⟨t', fs, h1, -, h2, hok, -⟩ := h
  injection h1 with h1
  subst h1
  have hf : (fs.map Prod.fst).Nodup := by rw [mean_fields h2]; exact hn
  refine ⟨fs, hok, fun key hh p hp => ?_, fun key hh p hp => ?_⟩
  · obtain ⟨xs, h3, v, y, h4, h5, rfl⟩ := mean_has h2 hh
    simp only [Reader.Means, LeafMeans] at h5
    obtain ⟨q, h5, rfl⟩ := h5
    simp only [numAt, values_of_mem hf h3] at hp
    exact ⟨v, q, h4, h5, hp⟩
  · rcases hh with hh | hh
    · obtain ⟨xs, h3, v, y, h4, h5, rfl⟩ := mean_has h2 hh
      simp only [Reader.Means, LeafMeans] at h5
      obtain ⟨q, h5, rfl⟩ := h5
      simp only [numAt, values_of_mem hf h3] at hp
      exact ⟨v, q, h4, h5, hp⟩
    · obtain ⟨xs, h3, v, y, h4, h5, rfl⟩ := mean_has h2 hh
      simp only [Reader.Means, LeafMeans] at h5
      obtain ⟨q, h5, -, rfl⟩ := h5
      simp only [numAt, values_of_mem hf h3] at hp
      exact ⟨v, q, h4, h5, hp⟩

/-- **C103.** What the solver is given is positive. -/
theorem ceres_checked (h : ceresSolver.read T N counted (.table t) = some x) :
    Holds T t .max_num_iterations (fun q => 0 < truncate q) ∧ Holds T t .num_threads (fun q => 0 < truncate q) := by
  obtain ⟨fs, hok, -, h2⟩ := numbers_of_read (by decide +kernel) (by decide +kernel) h
  simp only [Bool.and_eq_true, decide_eq_true_eq] at hok
  constructor
  · have := h2 .max_num_iterations (by simp [entries, need, Entries.Has]) (fun q => 0 < q) hok.1
    simpa using this
  · have := h2 .num_threads (by simp [entries, need, Entries.Has]) (fun q => 0 < q) hok.2
    simpa using this

/-- **C103.** The weights of the correlative scan matcher are not negative. -/
theorem correlative_checked (h : realTimeCorrelative.read T N counted (.table t) = some x) :
    Holds T t .translation_delta_cost_weight (fun q => 0 ≤ q) ∧ Holds T t .rotation_delta_cost_weight (fun q => 0 ≤ q) := by
  obtain ⟨fs, hok, h1, -⟩ := numbers_of_read (by decide +kernel) (by decide +kernel) h
  simp only [Bool.and_eq_true, decide_eq_true_eq] at hok
  exact ⟨h1 .translation_delta_cost_weight (by simp [entries, need, Entries.Has]) (fun q => 0 ≤ q) hok.1,
    h1 .rotation_delta_cost_weight (by simp [entries, need, Entries.Has]) (fun q => 0 ≤ q) hok.2⟩

/-- **C103.** Normals are estimated from at least one sample, in a positive radius. -/
theorem normals_checked (h : normalEstimation.read T N counted (.table t) = some x) :
    Holds T t .num_normal_samples (fun q => 0 < truncate q) ∧ Holds T t .sample_radius (fun q => 0 < q) := by
  obtain ⟨fs, hok, h1, h2⟩ := numbers_of_read (by decide +kernel) (by decide +kernel) h
  simp only [Bool.and_eq_true, decide_eq_true_eq] at hok
  refine ⟨?_, h1 .sample_radius (by simp [entries, need, Entries.Has]) (fun q => 0 < q) hok.2⟩
  have := h2 .num_normal_samples (by simp [entries, need, Entries.Has]) (fun q => 0 < q) hok.1
  simpa using this

/-- **C103.** A hit makes a cell more likely to be occupied, a miss less likely. -/
theorem probabilities_checked (h : probabilityInserter.read T N counted (.table t) = some x ∨
      rangeDataInserter3D.read T N counted (.table t) = some x) :
    Holds T t .hit_probability (fun q => 1 / 2 < q) ∧ Holds T t .miss_probability (fun q => q < 1 / 2) := by
  rcases h with h | h
  · obtain ⟨fs, hok, h1, -⟩ := numbers_of_read (by decide +kernel) (by decide +kernel) h
    simp only [Bool.and_eq_true, decide_eq_true_eq] at hok
    exact ⟨h1 .hit_probability (by simp [entries, need, Entries.Has]) (fun q => 1 / 2 < q) hok.1,
      h1 .miss_probability (by simp [entries, need, Entries.Has]) (fun q => q < 1 / 2) hok.2⟩
  · obtain ⟨fs, hok, h1, -⟩ := numbers_of_read (by decide +kernel) (by decide +kernel) h
    simp only [Bool.and_eq_true, decide_eq_true_eq] at hok
    exact ⟨h1 .hit_probability (by simp [entries, need, Entries.Has]) (fun q => 1 / 2 < q) hok.1,
      h1 .miss_probability (by simp [entries, need, Entries.Has]) (fun q => q < 1 / 2) hok.2⟩

/-- **C103.** Submaps get at least one scan, and the final optimization at least one iteration. -/
theorem counts_checked :
    (submaps2D.read T N counted (.table t) = some x → Holds T t .num_range_data (fun q => 0 < truncate q)) ∧
    (submaps3D.read T N counted (.table t) = some x → Holds T t .num_range_data (fun q => 0 < truncate q)) ∧
    (poseGraph.read T N counted (.table t) = some x →
      Holds T t .max_num_final_iterations (fun q => 0 < truncate q)) := by
  refine ⟨fun h => ?_, fun h => ?_, fun h => ?_⟩
  · obtain ⟨fs, hok, -, h2⟩ := numbers_of_read (by decide +kernel) (by decide +kernel) h
    simp only [submaps2DOk, Bool.and_eq_true, decide_eq_true_eq] at hok
    have := h2 .num_range_data (by simp [entries, need, Entries.Has]) (fun q => 0 < q) hok.2
    simpa using this
  · obtain ⟨fs, hok, -, h2⟩ := numbers_of_read (by decide +kernel) (by decide +kernel) h
    simp only [decide_eq_true_eq] at hok
    have := h2 .num_range_data (by simp [entries, need, Entries.Has]) (fun q => 0 < q) hok
    simpa using this
  · obtain ⟨fs, hok, -, h2⟩ := numbers_of_read (by decide +kernel) (by decide +kernel) h
    simp only [decide_eq_true_eq] at hok
    have := h2 .max_num_final_iterations (by simp [entries, need, Entries.Has]) (fun q => 0 < q) hok
    simpa using this
end

/-- Weights of 0 are allowed. -/
example (T : ToNumber Str) (N : ToText) : (realTimeCorrelative.read T N true (.table [
    (.str (plain .linear_search_window), .num 1), (.str (plain .angular_search_window), .num 1),
    (.str (plain .translation_delta_cost_weight), .num 0), (.str (plain .rotation_delta_cost_weight), .num 0)])).isSome := by
  obtain ⟨x, hx⟩ := accepted_of_eval (T := T) (N := N) (counted := true) (r := realTimeCorrelative) (by decide +kernel)
    (v := .table [
    (.str (plain .linear_search_window), .num 1), (.str (plain .angular_search_window), .num 1),
    (.str (plain .translation_delta_cost_weight), .num 0), (.str (plain .rotation_delta_cost_weight), .num 0)])
    (by with_unfolding_all rfl)
  rw [hx]
  rfl

/-- The number of threads in the configuration is the one in the options. -/
example (T : ToNumber Str) (N : ToText) (rad : ℚ → ℚ) : ∃ fs,
    mapBuilder.read T N true (mapBuilderConfig rad true false) = some (.msg .MapBuilderOptions fs) ∧
      numAt fs .num_background_threads = 4 := by
  refine ⟨_, Reader.eval_read T N true mapBuilder (by decide +kernel) _ _ rfl, ?_⟩
  rfl

/-- A motion filter with a misspelt key. -/
example : motionFilter.read (fun _ => none) (fun _ => other 7) true (.table [
    (.str (plain .max_time_seconds), .num 5), (.str (plain .max_distance_meters), .num 1),
    (.str (plain .max_angle_radians), .num 1), (.str (other 3), .num 1)]) = none := by
  refine unknown_key_aborts (s := other 3) (v := .num 1) (by decide +kernel) (by simp) rfl ?_
  simp [entries, need, Entries.Wants, WantsOne, other, plain]

/-- Free space is inserted unless the configuration says otherwise. -/
example (T : ToNumber Str) (N : ToText) : probabilityInserter.read T N true (.table [
    (.str (plain .hit_probability), .num (11 / 20)), (.str (plain .miss_probability), .num (49 / 100))]) =
    some (.msg .ProbabilityGridRangeDataInserterOptions2D [(.hit_probability, [.num (11 / 20)]),
      (.miss_probability, [.num (49 / 100)]), (.insert_free_space, [.bool true])]) :=
  Reader.eval_read T N true probabilityInserter (by decide +kernel) _ _ (by with_unfolding_all rfl)

end Verif.Config
