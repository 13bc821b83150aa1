import Verif.LuaText
import Verif.Props.FloatFormat
import Mathlib.Data.List.TakeWhile
import Mathlib.Data.Nat.Digits.Lemmas

/-!
# Lemmas for configurations as text
-/

namespace Verif.LuaText

/-! ### Numbers -/

theorem digitChar_spec : ∀ n < 10, isDigit (digitChar n) = true ∧ (digitChar n).toNat - 48 = n ∧ isSpace (digitChar n) = false ∧
    isLetter (digitChar n) = false ∧ digitChar n ≠ '{' ∧ digitChar n ≠ '-' ∧ digitChar n ≠ '"' ∧ digitChar n ≠ '}' := by decide

theorem digitsValue_append (s : Text) (c : Char) : digitsValue (s ++ [c]) = 10 * digitsValue s + (c.toNat - 48) := by
  simp [digitsValue, List.foldl_append]

theorem digitsValue_append' (s r : Text) : digitsValue (s ++ r) = 10 ^ r.length * digitsValue s + digitsValue r := by
  induction r using List.reverseRecOn with
  | nil => simp [digitsValue]
  | append_singleton r c ih =>
    rw [← List.append_assoc, digitsValue_append, digitsValue_append, ih, List.length_append, List.length_singleton, pow_succ]
    ring

theorem digitsValue_map (l : List Nat) (h : ∀ d ∈ l, d < 10) : digitsValue (l.reverse.map digitChar) = Nat.ofDigits 10 l := by
  induction l with
  | nil => rfl
  | cons d l ih =>
    rw [List.reverse_cons, List.map_append, List.map_singleton, digitsValue_append, ih (fun x hx => h x (by simp [hx])), Nat.ofDigits_cons,
      (digitChar_spec d (h d (by simp))).2.1]
    push_cast
    ring

theorem decimal_digits (n : Nat) : ∀ c ∈ decimal n, ∃ d < 10, c = digitChar d := by
  intro c hc
  unfold decimal at hc
  split at hc
  · simp only [List.mem_singleton] at hc
    exact ⟨0, by omega, by rw [hc]; rfl⟩
  · simp only [List.mem_map, List.mem_reverse] at hc
    obtain ⟨d, hd, rfl⟩ := hc
    exact ⟨d, Nat.digits_lt_base (by norm_num) hd, rfl⟩

theorem decimal_isDigit (n : Nat) : ∀ c ∈ decimal n, isDigit c = true := by
  intro c hc
  obtain ⟨d, hd, rfl⟩ := decimal_digits n c hc
  exact (digitChar_spec d hd).1

theorem decimal_value (n : Nat) : digitsValue (decimal n) = n := by
  unfold decimal
  split
  · rename_i h; subst h; rfl
  · rw [digitsValue_map _ fun d hd => Nat.digits_lt_base (by norm_num) hd, Nat.ofDigits_digits]

theorem decimal_ne_nil (n : Nat) : decimal n ≠ [] := by
  unfold decimal
  split
  · simp
  · rename_i h
    simpa [Nat.digits_eq_nil_iff_eq_zero] using h

/-- A beginning of numbers. -/
theorem decimal_cons (n : Nat) : ∃ d < 10, ∃ r, decimal n = digitChar d :: r := by
  cases h : decimal n with
  | nil => exact absurd h (decimal_ne_nil n)
  | cons c r =>
    obtain ⟨d, hd, rfl⟩ := decimal_digits n c (by rw [h]; simp)
    exact ⟨d, hd, r, rfl⟩

/-- Six digits. -/
def six (k : Nat) : Text := [100000, 10000, 1000, 100, 10, 1].map fun p => digitChar (k % 1000000 / p % 10)

theorem six_isDigit (k : Nat) : ∀ c ∈ six k, isDigit c = true := by
  intro c hc
  simp only [six, List.mem_map] at hc
  obtain ⟨p, -, rfl⟩ := hc
  exact (digitChar_spec _ (Nat.mod_lt _ (by norm_num))).1

theorem six_value (k : Nat) : digitsValue (six k) = k % 1000000 := by
  have h : ∀ m : Nat, (digitChar (m % 10)).toNat - 48 = m % 10 := fun m => (digitChar_spec _ (Nat.mod_lt _ (by norm_num))).2.1
  simp only [six, List.map_cons, List.map_nil, digitsValue, List.foldl_cons, List.foldl_nil, h]
  omega

theorem fixed_eq (q : ℚ) : fixed q = decimal (millionths q / 1000000) ++ '.' :: six (millionths q) := rfl

/-- What may follow a value. -/
def Stops (rest : Text) : Prop := ∀ c r, rest = c :: r → isWord c = false ∧ c ≠ '.' ∧ isDigit c = false

theorem takeWhile_stop {p : Char → Bool} {s rest : Text} (h : ∀ c ∈ s, p c = true) (hr : ∀ c r, rest = c :: r → p c = false) :
    (s ++ rest).takeWhile p = s ∧ (s ++ rest).dropWhile p = rest := by
  rw [List.takeWhile_append_of_pos h, List.dropWhile_append_of_pos h]
  cases rest with
  | nil => simp
  | cons c r => simp [hr c r rfl]

theorem readNumber_fixed (fl : ℚ → ℚ) (q : ℚ) {rest : Text} (hs : Stops rest) :
    readNumber fl (fixed q ++ rest) = some (.num false (.fin (fl ((millionths q : ℚ) / 10 ^ 6))), rest) := by
  rw [fixed_eq, List.append_assoc, List.cons_append]
  obtain ⟨e1, e2⟩ := takeWhile_stop (p := isDigit) (rest := '.' :: (six (millionths q) ++ rest)) (decimal_isDigit (millionths q / 1000000))
    (fun c r h => by rw [List.cons.injEq] at h; rw [← h.1]; rfl)
  obtain ⟨e3, e4⟩ := takeWhile_stop (p := isDigit) (rest := rest) (six_isDigit (millionths q)) fun c r h => (hs c r h).2.2
  unfold readNumber
  simp only [e1, e2, e3, e4]
  have hv : digitsValue (decimal (millionths q / 1000000) ++ six (millionths q)) = millionths q := by
    rw [digitsValue_append', decimal_value, six_value, show (six (millionths q)).length = 6 from rfl]
    omega
  rw [hv, show (six (millionths q)).length = 6 from rfl]
  cases rest with
  | nil => rfl
  | cons c r =>
    obtain ⟨h1, h2, -⟩ := hs c r rfl
    simp [h1, h2]

/-! ### Strings -/

theorem escape_first (s : Text) (hs : digitNext s = false) (rest : Text) :
    ∀ c r, escape s ++ '"' :: rest = c :: r → isDigit c = false := by
  intro c r h
  cases s with
  | nil =>
    simp only [escape, List.nil_append, List.cons.injEq] at h
    rw [← h.1]; rfl
  | cons x s =>
    unfold escape at h
    split at h
    · simp only [List.cons_append, List.cons.injEq] at h
      rw [← h.1]; rfl
    · split at h
      · simp only [List.cons_append, List.cons.injEq] at h
        rw [← h.1]; rfl
      · simp only [List.cons_append, List.cons.injEq] at h
        rw [← h.1]; exact hs

theorem byte_char {c : Char} (h : c.toNat ≤ 255) : byte c.toNat = some c := by
  unfold byte
  rw [if_pos h, Char.ofNat_toNat]

theorem readEscape_of {d rest : Text} {n : Nat} (hd : ∀ c ∈ d, isDigit c = true) (hne : d ≠ []) (hl : d.length ≤ 3)
    (hr : d.length = 3 ∨ ∀ c r, rest = c :: r → isDigit c = false) (hv : digitsValue d = n) :
    readEscape (d ++ rest) = (byte n).map fun b => (b, rest) := by
  have ht : ((d ++ rest).take 3).takeWhile isDigit = d := by
    rcases hr with h3 | hr
    · rw [List.take_append_of_le_length (by omega), List.take_of_length_le (by omega)]
      exact List.takeWhile_eq_self_iff.2 hd
    · rw [List.take_append, List.take_of_length_le hl]
      refine (takeWhile_stop hd ?_).1
      intro c r h
      cases rest with
      | nil => simp at h
      | cons x y =>
        cases hk : 3 - d.length with
        | zero => rw [hk] at h; simp at h
        | succ k =>
          rw [hk, List.take_succ_cons, List.cons.injEq] at h
          rw [← h.1]; exact hr x y rfl
  cases d with
  | nil => exact absurd rfl hne
  | cons c d =>
    rw [List.cons_append] at ht ⊢
    rw [readEscape, if_pos (hd c (by simp))]
    dsimp only
    rw [ht, hv]
    congr 1
    funext b
    simp

theorem decimal_length {n : Nat} (h : n < 1000) : (decimal n).length ≤ 3 := by
  unfold decimal
  split
  · simp
  · rw [List.length_map, List.length_reverse]
    exact (Nat.digits_length_le_iff (by norm_num) n).2 (by norm_num; omega)

theorem padded_value {n : Nat} (h : n < 1000) : digitsValue (padded n) = n := by
  have hd : ∀ m : Nat, (digitChar (m % 10)).toNat - 48 = m % 10 := fun m => (digitChar_spec _ (Nat.mod_lt _ (by norm_num))).2.1
  simp only [padded, digitsValue, List.foldl_cons, List.foldl_nil, hd]
  omega

theorem padded_isDigit (n : Nat) : ∀ c ∈ padded n, isDigit c = true := by
  intro c hc
  simp only [padded, List.mem_cons, List.not_mem_nil, or_false] at hc
  rcases hc with rfl | rfl | rfl <;> exact (digitChar_spec _ (Nat.mod_lt _ (by norm_num))).1

theorem readString_escape : ∀ (s : Text) (rest : Text) (n : Nat), (∀ c ∈ s, c.toNat ≤ 255) → (escape s).length + 1 ≤ n →
    readString n (escape s ++ '"' :: rest) = some (s, rest) := by
  intro s
  induction s with
  | nil =>
    intro rest n _ hn
    cases n with
    | zero => simp [escape] at hn
    | succ n => simp [escape, readString]
  | cons c s ih =>
    intro rest n hc hn
    have hc' : ∀ x ∈ s, x.toNat ≤ 255 := fun x hx => hc x (by simp [hx])
    cases n with
    | zero => simp at hn
    | succ n =>
      unfold escape at hn ⊢
      split at hn
      · rename_i h
        rw [if_pos h]
        simp only [List.length_cons] at hn
        rw [List.cons_append, List.cons_append, readString, if_neg (by decide), if_neg (by decide), if_pos rfl]
        have he : readEscape (c :: (escape s ++ '"' :: rest)) = some (c, escape s ++ '"' :: rest) := by
          rcases h with rfl | rfl | rfl <;> rfl
        rw [he]
        simp only [ih rest n hc' (by omega), Option.map_some]
      · rename_i h
        rw [if_neg h]
        split at hn
        · rename_i hk
          rw [if_pos hk]
          have hc255 := hc c (by simp)
          have hlen : c.toNat < 1000 := by omega
          rw [List.cons_append, List.cons_append, readString, if_neg (by decide), if_neg (by decide), if_pos rfl, List.append_assoc]
          have he : readEscape ((if digitNext s then padded c.toNat else decimal c.toNat) ++ (escape s ++ '"' :: rest)) =
              some (c, escape s ++ '"' :: rest) := by
            split
            · rw [readEscape_of (padded_isDigit _) (by simp [padded]) (by simp [padded]) (.inl rfl) (padded_value hlen), byte_char hc255]
              rfl
            · rename_i hd
              rw [readEscape_of (decimal_isDigit _) (decimal_ne_nil _) (decimal_length hlen)
                (.inr (escape_first s (by simpa using hd) rest)) (decimal_value _), byte_char hc255]
              rfl
          rw [he]
          simp only [List.cons_append, List.length_cons, List.length_append] at hn
          simp only [ih rest n hc' (by omega), Option.map_some]
        · rename_i hk
          rw [if_neg hk]
          simp only [List.length_cons] at hn
          push Not at h
          rw [List.cons_append, readString, if_neg h.1, if_neg (by rintro (hc1 | hc1); exacts [h.2.2 hc1, hk (by rw [hc1]; decide)]), if_neg h.2.1]
          simp only [ih rest n hc' (by omega), Option.map_some]

/-! ### Tables as maps -/

theorem get_nil {V : Type} (k : Key) : get ([] : List (Key × V)) k = none := rfl

theorem get_cons {V : Type} (e : Key × V) (t : List (Key × V)) (k : Key) : get (e :: t) k = if e.1 = k then some e.2 else get t k := by
  unfold get
  by_cases h : e.1 = k <;> simp [h]

theorem get_isSome {V : Type} (t : List (Key × V)) (k : Key) : (get t k).isSome = true ↔ k ∈ t.map Prod.fst := by
  induction t with
  | nil => simp [get_nil]
  | cons e t ih =>
    rw [get_cons, List.map_cons, List.mem_cons]
    split
    · rename_i h; simp [h]
    · rename_i h
      rw [ih]
      exact ⟨.inr, fun h' => h'.resolve_left fun e' => h e'.symm⟩

theorem get_eq {V : Type} {t : List (Key × V)} (hn : (t.map Prod.fst).Nodup) {k : Key} {v : V} : get t k = some v ↔ (k, v) ∈ t := by
  induction t with
  | nil => simp [get_nil]
  | cons e t ih =>
    rw [List.map_cons, List.nodup_cons] at hn
    rw [get_cons, List.mem_cons]
    split
    · rename_i h
      constructor
      · intro h'
        left
        rw [← h, ← Option.some.inj h']
      · rintro (h' | h')
        · rw [← h']
        · exact absurd (List.mem_map_of_mem (f := Prod.fst) h') (by rw [h] at hn; exact hn.1)
    · rename_i h
      rw [ih hn.2]
      exact ⟨.inr, fun h' => h'.resolve_left fun e' => h (by rw [← e'])⟩

theorem get_append {V : Type} (t : List (Key × V)) (k k' : Key) (v : V) :
    get (t ++ [(k, v)]) k' = match get t k' with | some w => some w | none => if k = k' then some v else none := by
  induction t with
  | nil => simp [get_nil, get_cons]
  | cons e t ih =>
    rw [List.cons_append, get_cons, get_cons]
    split
    · rfl
    · exact ih

theorem get_filter {V : Type} (t : List (Key × V)) (k k' : Key) :
    get (t.filter fun e => decide (e.1 ≠ k)) k' = if k = k' then none else get t k' := by
  induction t with
  | nil => simp [get_nil]
  | cons e t ih =>
    rw [List.filter_cons]
    split
    · rename_i h
      rw [get_cons, ih, get_cons]
      simp only [ne_eq, decide_not, Bool.not_eq_eq_eq_not, Bool.not_true, decide_eq_false_iff_not] at h
      split
      · rename_i h'
        rw [if_neg (fun e' => h (by rw [h', e']))]
      · rfl
    · rename_i h
      rw [ih, get_cons]
      simp only [ne_eq, decide_not, Bool.not_eq_eq_eq_not, Bool.not_true, decide_eq_false_iff_not, not_not] at h
      by_cases hk : k = k'
      · rw [if_pos hk, if_pos hk]
      · rw [if_neg hk, if_neg hk, if_neg (fun e' => hk (by rw [← h, e']))]

theorem get_put (t : List (Key × Value)) (k k' : Key) (v : Value) : get (put t k (some v)) k' = if k' = k then some v else get t k' := by
  unfold put
  rw [get_append, get_filter]
  by_cases h : k = k'
  · subst h; simp
  · rw [if_neg h, if_neg (Ne.symm h)]
    cases get t k' <;> simp [h]

theorem put_nodup {t : List (Key × Value)} (h : (t.map Prod.fst).Nodup) (k : Key) (v : Value) : ((put t k (some v)).map Prod.fst).Nodup := by
  unfold put
  rw [List.map_append, List.map_singleton]
  refine List.nodup_append.2 ⟨(List.Sublist.map _ List.filter_sublist).nodup h, List.nodup_singleton _, ?_⟩
  intro a ha b hb
  simp only [List.mem_map, List.mem_filter] at ha
  obtain ⟨x, ⟨-, hx⟩, rfl⟩ := ha
  simp only [List.mem_singleton] at hb
  subst hb
  simpa using hx

/-! ### Blanks -/

theorem skip_cons {c : Char} (h : isSpace c = false) (s : Text) : skip (c :: s) = c :: s := by
  simp [skip, h]

theorem skip_append {s : Text} (h : ∀ c ∈ s, isSpace c = true) (r : Text) : skip (s ++ r) = skip r := List.dropWhile_append_of_pos h

end Verif.LuaText
