import Verif.RelationsText
import Verif.Props.Rigid
import Verif.Props.Time

/-!
# C122: relations given as text are those that are used

`reads` says what is read from a file that consists of numbers; `garbage_aborts`, `no_file` and the examples are about other files. `number`
is what a single number is read as, for all ways to write one. `times` and `rotation_of` say what a relation means.
-/

namespace Verif.RelationsText

open Ticks (rnd fromSeconds fromUniversal toUniversal plus Time toInt64 Int64)
open Rigid (V3 Quat Rigid3 aroundZ getYaw)

/-! ### Vocabulary -/

/-- The number a sequence of digits stands for. -/
def digits : List Char → Nat
  | [] => 0
  | c :: r => (c.toNat - 48) * 10 ^ r.length + digits r

/-- A number as it may be written: an optional sign, digits, optionally a point with digits, optionally an exponent with an
optional sign. -/
structure Literal where
  sign : List Char := []
  int : List Char
  fraction : Option (List Char) := none
  exponent : Option (Char × List Char × List Char) := none

/-- The digits after the point. -/
def Literal.decimals (l : Literal) : List Char := l.fraction.getD []

/-- It is written correctly. -/
structure Literal.Valid (l : Literal) : Prop where
  sign : l.sign = [] ∨ l.sign = ['+'] ∨ l.sign = ['-']
  int : ∀ c ∈ l.int, isDigit c = true
  decimals : ∀ c ∈ l.decimals, isDigit c = true
  some : l.int ++ l.decimals ≠ []
  exponent : ∀ e, l.exponent = Option.some e → (e.1 = 'e' ∨ e.1 = 'E') ∧ (e.2.1 = [] ∨ e.2.1 = ['+'] ∨ e.2.1 = ['-']) ∧
    e.2.2 ≠ [] ∧ ∀ c ∈ e.2.2, isDigit c = true

/-- How it is written. -/
def Literal.text (l : Literal) : List Char :=
  l.sign ++ (l.int ++ ((match l.fraction with | none => [] | some f => '.' :: f) ++
    match l.exponent with | none => [] | some e => e.1 :: (e.2.1 ++ e.2.2)))

/-- The factor for a sign. -/
def signOf (s : List Char) : Int := if s = ['-'] then -1 else 1

/-- What it stands for. -/
def Literal.value (l : Literal) : ℚ :=
  signOf l.sign * ((digits l.int : ℚ) + digits l.decimals / 10 ^ l.decimals.length) *
    10 ^ (match l.exponent with | none => 0 | some e => signOf e.2.1 * (digits e.2.2 : Int))

/-- White space. -/
def Blank (l : List Char) : Prop := ∀ c ∈ l, isSpace c = true

/-- What may follow a number. -/
def Stops (r : List Char) : Prop := r = [] ∨ ∃ c r', r = c :: r' ∧ isSpace c = true

/-! ### Characters -/

theorem digit_ne {c : Char} (h : isDigit c = true) :
    (c == '+') = false ∧ (c == '-') = false ∧ (c == '.') = false ∧ (c == 'e') = false ∧ (c == 'E') = false ∧ isSpace c = false := by
  simp only [isDigit, decide_eq_true_eq] at h
  have ne : ∀ d : Char, (d.toNat < 48 ∨ 57 < d.toNat) → (c == d) = false := by
    intro d hd
    rw [beq_eq_false_iff_ne]
    rintro rfl
    omega
  refine ⟨ne _ (by decide), ne _ (by decide), ne _ (by decide), ne _ (by decide), ne _ (by decide), ?_⟩
  simp only [isSpace, ne ' ' (by decide), ne '\t' (by decide), ne '\n' (by decide), ne '\x0b' (by decide),
    ne '\x0c' (by decide), ne '\r' (by decide), Bool.or_self]

theorem space_cases {c : Char} (h : isSpace c = true) :
    c = ' ' ∨ c = '\t' ∨ c = '\n' ∨ c = '\x0b' ∨ c = '\x0c' ∨ c = '\r' := by
  simp only [isSpace, Bool.or_eq_true, beq_iff_eq] at h
  tauto

theorem accum_stops {m d s j : Bool} {r : List Char} (h : Stops r) : accum m d s j r = ([], r) := by
  rcases h with rfl | ⟨c, r', rfl, h⟩
  · rfl
  · rcases space_cases h with rfl | rfl | rfl | rfl | rfl | rfl <;>
      simp [accum, isDigit]

theorem accum_digits {ds : List Char} : ∀ {m d s j : Bool} {r : List Char}, (∀ c ∈ ds, isDigit c = true) → ds ≠ [] →
    accum m d s j (ds ++ r) = (ds ++ (accum true d s false r).1, (accum true d s false r).2) := by
  induction ds with
  | nil => intro m d s j r _ h; exact absurd rfl h
  | cons c ds ih =>
    intro m d s j r hd _
    have hc := hd c List.mem_cons_self
    obtain ⟨h1, h2, h3, -, -, -⟩ := digit_ne hc
    simp only [List.cons_append, accum, h1, h2, h3, hc, Bool.or_self, Bool.and_false, Bool.false_and, Bool.false_eq_true, if_false,
      if_true]
    by_cases hn : ds = []
    · subst hn
      rfl
    · rw [ih (fun c hc => hd c (List.mem_cons_of_mem _ hc)) hn]
      rfl

/-- Digits that may be missing. -/
theorem accum_digits' {ds : List Char} {m d s : Bool} {r : List Char} (h : ∀ c ∈ ds, isDigit c = true) :
    accum m d s false (ds ++ r) = (ds ++ (accum (m || !ds.isEmpty) d s false r).1, (accum (m || !ds.isEmpty) d s false r).2) := by
  by_cases hn : ds = []
  · subst hn
    simp
  · rw [accum_digits h hn]
    have : ds.isEmpty = false := by simpa using hn
    simp [this]

/-- A sign that may be missing, before a digit or a point. -/
theorem accum_sign {sg : List Char} (hs : sg = [] ∨ sg = ['+'] ∨ sg = ['-']) {m d s : Bool} {r : List Char}
    (hr : ∀ c r', r = c :: r' → (c == '+') = false ∧ (c == '-') = false) :
    accum m d s true (sg ++ r) = (sg ++ (accum m d s false r).1, (accum m d s false r).2) := by
  rcases hs with rfl | rfl | rfl
  · cases r with
    | nil => rfl
    | cons c r' =>
      obtain ⟨h1, h2⟩ := hr c r' rfl
      simp [accum, h1, h2]
  · simp [accum, push]
  · simp [accum, push]

/-- The exponent as it is passed to `strtod`. -/
def expText : Option (Char × List Char × List Char) → List Char
  | none => []
  | some e => 'e' :: (e.2.1 ++ e.2.2)

/-- The number as it is passed to `strtod`. -/
def Literal.taken (l : Literal) : List Char :=
  l.sign ++ (l.int ++ ((match l.fraction with | none => [] | some f => '.' :: f) ++ expText l.exponent))

theorem accum_exponent {l : Literal} (h : l.Valid) {d : Bool} {r : List Char} (hr : Stops r) :
    accum true d false false ((match l.exponent with | none => [] | some e => e.1 :: (e.2.1 ++ e.2.2)) ++ r) =
      (expText l.exponent, r) := by
  cases he : l.exponent with
  | none => simpa [expText] using accum_stops hr
  | some e =>
    obtain ⟨h1, h2, h3, h4⟩ := h.exponent e he
    have hc : isDigit e.1 = false ∧ (e.1 == '.') = false ∧ (e.1 == 'e' || e.1 == 'E') = true := by
      rcases h1 with h1 | h1 <;> rw [h1] <;> decide
    simp only [List.cons_append, accum, hc.1, hc.2.1, hc.2.2, Bool.false_and, Bool.false_eq_true, if_false, Bool.not_false,
      Bool.and_self, if_true, List.append_assoc]
    rw [accum_sign h2, accum_digits h4 h3, accum_stops hr]
    · simp [push, expText]
    · intro c r' hcr
      obtain ⟨x, xs, hx⟩ := List.exists_cons_of_ne_nil h3
      rw [hx] at hcr h4
      simp only [List.cons_append, List.cons.injEq] at hcr
      obtain ⟨rfl, -⟩ := hcr
      obtain ⟨a, b, -⟩ := digit_ne (h4 x List.mem_cons_self)
      exact ⟨a, b⟩

theorem accum_literal {l : Literal} (h : l.Valid) {r : List Char} (hr : Stops r) :
    accum false false false true (l.text ++ r) = (l.taken, r) := by
  unfold Literal.text Literal.taken
  simp only [List.append_assoc]
  have hd := h.decimals
  have hsome := h.some
  unfold Literal.decimals at hd hsome
  rw [accum_sign h.sign, accum_digits' h.int]
  · cases hf : l.fraction with
    | none =>
      rw [hf] at hsome
      have : l.int.isEmpty = false := by simpa using hsome
      simp only [this, Bool.not_false, Bool.or_true, List.nil_append]
      rw [accum_exponent h hr]
    | some f =>
      rw [hf] at hd hsome
      simp only [Option.getD_some] at hd hsome
      have hp : ∀ {m : Bool} {x : List Char}, accum m false false false ('.' :: x) = push '.' (accum m true false false x) := by
        intro m x
        simp [accum]
      simp only [List.cons_append, hp]
      rw [accum_digits' hd]
      have : (false || !l.int.isEmpty || !f.isEmpty) = true := by
        cases hi : l.int with
        | nil =>
          rw [hi] at hsome
          simpa using hsome
        | cons a b => simp
      rw [this, accum_exponent h hr]
      rfl
  · intro c r' hcr
    cases hi : l.int with
    | cons a b =>
      rw [hi, List.cons_append, List.cons.injEq] at hcr
      obtain ⟨rfl, -⟩ := hcr
      obtain ⟨x, y, -⟩ := digit_ne (h.int a (by rw [hi]; exact List.mem_cons_self))
      exact ⟨x, y⟩
    | nil =>
      cases hf : l.fraction with
      | none =>
        rw [hf, hi] at hsome
        exact absurd rfl hsome
      | some f =>
        rw [hi, hf] at hcr
        simp only [List.nil_append, List.cons_append, List.cons.injEq] at hcr
        obtain ⟨rfl, -⟩ := hcr
        decide

/-! ### `strtod` -/

theorem scan_digits {ds : List Char} : ∀ {v n : Nat} {r : List Char}, (∀ c ∈ ds, isDigit c = true) →
    (∀ c r', r = c :: r' → isDigit c = false) → scan v n (ds ++ r) = (v * 10 ^ ds.length + digits ds, n + ds.length, r) := by
  induction ds with
  | nil =>
    intro v n r _ hr
    cases r with
    | nil => simp [scan, digits]
    | cons c r' => simp [scan, digits, hr c r' rfl]
  | cons c ds ih =>
    intro v n r hd hr
    simp only [List.cons_append, scan, hd c List.mem_cons_self, if_true]
    rw [ih (fun c hc => hd c (List.mem_cons_of_mem _ hc)) hr]
    simp only [digits, List.length_cons, Prod.mk.injEq, and_true]
    exact ⟨by ring, by ring⟩

theorem takeSign_append {sg r : List Char} (hs : sg = [] ∨ sg = ['+'] ∨ sg = ['-'])
    (hr : ∀ c r', r = c :: r' → (c == '+') = false ∧ (c == '-') = false) :
    takeSign (sg ++ r) = (decide (sg = ['-']), r) := by
  rcases hs with rfl | rfl | rfl
  · cases r with
    | nil => rfl
    | cons c r' =>
      obtain ⟨h1, h2⟩ := hr c r' rfl
      rw [beq_eq_false_iff_ne] at h1 h2
      simp only [List.nil_append, takeSign]
      split <;> simp_all
  · rfl
  · rfl

theorem scanExponent_text {l : Literal} (h : l.Valid) : scanExponent (expText l.exponent) =
    ((match l.exponent with | none => 0 | some e => signOf e.2.1 * (digits e.2.2 : Int)), []) := by
  cases he : l.exponent with
  | none => rfl
  | some e =>
    obtain ⟨h1, h2, h3, h4⟩ := h.exponent e he
    have hts : takeSign (e.2.1 ++ e.2.2) = (decide (e.2.1 = ['-']), e.2.2) := by
      apply takeSign_append h2
      intro c r' hcr
      obtain ⟨a, b, -⟩ := digit_ne (h4 c (by rw [hcr]; exact List.mem_cons_self))
      exact ⟨a, b⟩
    have hsc : scan 0 0 e.2.2 = (digits e.2.2, e.2.2.length, []) := by
      have := scan_digits (v := 0) (n := 0) (r := []) h4 (by simp)
      simpa using this
    have hl : e.2.2.length ≠ 0 := by simpa using h3
    simp only [expText, scanExponent, hts, hsc, hl, if_false, signOf, decide_eq_true_eq, Prod.mk.injEq, and_true]
    split <;> simp

theorem strtod_literal {l : Literal} (h : l.Valid) : strtod l.taken = some (l.value, []) := by
  have hexp := scanExponent_text h
  have hhead : ∀ c r', expText l.exponent = c :: r' → c = 'e' := by
    intro c r' hc
    cases he : l.exponent with
    | none => rw [he] at hc; cases hc
    | some e => rw [he] at hc; simp only [expText, List.cons.injEq] at hc; exact hc.1.symm
  have hts : takeSign l.taken = (decide (l.sign = ['-']),
      l.int ++ ((match l.fraction with | none => [] | some f => '.' :: f) ++ expText l.exponent)) := by
    apply takeSign_append h.sign
    intro c r' hcr
    cases hi : l.int with
    | cons a b =>
      rw [hi, List.cons_append, List.cons.injEq] at hcr
      obtain ⟨rfl, -⟩ := hcr
      obtain ⟨x, y, -⟩ := digit_ne (h.int a (by rw [hi]; exact List.mem_cons_self))
      exact ⟨x, y⟩
    | nil =>
      cases hf : l.fraction with
      | none => exact absurd (by rw [hi, Literal.decimals, hf]; rfl) h.some
      | some f =>
        rw [hi, hf] at hcr
        simp only [List.nil_append, List.cons_append, List.cons.injEq] at hcr
        obtain ⟨rfl, -⟩ := hcr
        decide
  have hsc1 : scan 0 0 (l.int ++ ((match l.fraction with | none => [] | some f => '.' :: f) ++ expText l.exponent)) =
      (digits l.int, l.int.length, (match l.fraction with | none => [] | some f => '.' :: f) ++ expText l.exponent) := by
    have := scan_digits (v := 0) (n := 0)
      (r := (match l.fraction with | none => [] | some f => '.' :: f) ++ expText l.exponent) h.int (by
        intro c r' hcr
        cases hf : l.fraction with
        | none =>
          rw [hf] at hcr
          rw [hhead c r' (by simpa using hcr)]
          decide
        | some f =>
          rw [hf] at hcr
          simp only [List.cons_append, List.cons.injEq] at hcr
          rw [← hcr.1]
          decide)
    simpa using this
  have hsc2 : scanFraction (digits l.int) ((match l.fraction with | none => [] | some f => '.' :: f) ++ expText l.exponent) =
      (digits l.int * 10 ^ l.decimals.length + digits l.decimals, l.decimals.length, expText l.exponent) := by
    cases hf : l.fraction with
    | none =>
      simp only [List.nil_append, Literal.decimals, hf, Option.getD_none, List.length_nil, pow_zero, mul_one, digits, add_zero]
      cases he : expText l.exponent with
      | nil => rfl
      | cons c r' =>
        rw [hhead c r' he]
        rfl
    | some f =>
      have hd := h.decimals
      simp only [Literal.decimals, hf, Option.getD_some] at hd ⊢
      simp only [List.cons_append, scanFraction]
      rw [scan_digits hd]
      · simp
      · intro c r' hcr
        rw [hhead c r' hcr]
        decide
  have hne : ¬ l.int.length + l.decimals.length = 0 := by
    intro h0
    apply h.some
    rw [← List.length_eq_zero_iff, List.length_append]
    exact h0
  simp only [strtod, hts, hsc1, hsc2, hne, if_false, hexp, Option.some.injEq, Prod.mk.injEq, and_true]
  unfold Literal.value
  rw [zpow_sub₀ (by norm_num), zpow_natCast]
  have h10 : (10 : ℚ) ^ l.decimals.length ≠ 0 := by positivity
  have hsign : (if (decide (l.sign = ['-'])) = true then (-1 : ℚ) else 1) = (signOf l.sign : ℚ) := by
    unfold signOf
    by_cases hm : l.sign = ['-'] <;> simp [hm]
  rw [hsign]
  push_cast
  field_simp

/-! ### Single numbers -/

theorem text_head {l : Literal} (h : l.Valid) : ∃ c r, l.text = c :: r ∧ isSpace c = false := by
  have hfd := h.some
  unfold Literal.text
  rcases h.sign with hs | hs | hs
  · cases hi : l.int with
    | cons a b =>
      refine ⟨a, _, by rw [hs]; rfl, ?_⟩
      obtain ⟨-, -, -, -, -, hx⟩ := digit_ne (h.int a (by rw [hi]; exact List.mem_cons_self))
      exact hx
    | nil =>
      cases hf : l.fraction with
      | none => exact absurd (by rw [hi, Literal.decimals, hf]; rfl) hfd
      | some f => exact ⟨'.', _, by rw [hs]; rfl, by decide⟩
  · exact ⟨'+', _, by rw [hs]; rfl, by decide⟩
  · exact ⟨'-', _, by rw [hs]; rfl, by decide⟩

theorem dropWhile_blank {ws r : List Char} (h : Blank ws) (hr : ∀ c r', r = c :: r' → isSpace c = false) :
    (ws ++ r).dropWhile isSpace = r := by
  induction ws with
  | nil =>
    cases r with
    | nil => rfl
    | cons c r' => simp [List.dropWhile, hr c r' rfl]
  | cons c ws ih =>
    rw [List.cons_append, List.dropWhile_cons_of_pos (h c List.mem_cons_self)]
    exact ih (fun c hc => h c (List.mem_cons_of_mem _ hc))

/-- C122, single numbers: however a number is written, it is read as the double nearest to what it stands for, and nothing else
is taken from the file; a number too large for a double is an error. -/
theorem number {l : Literal} (h : l.Valid) {ws r : List Char} (hws : Blank ws) (hr : Stops r) :
    extract ⟨ws ++ (l.text ++ r), false, false⟩ =
      (if |rnd l.value| < 2 ^ 1024 then some (rnd l.value) else none,
        ⟨r, r.isEmpty, decide (¬ |rnd l.value| < 2 ^ 1024)⟩) := by
  obtain ⟨c, r', hc, hs⟩ := text_head h
  have hdrop : (ws ++ (l.text ++ r)).dropWhile isSpace = c :: (r' ++ r) := by
    rw [dropWhile_blank hws, hc, List.cons_append]
    intro c' r'' he
    rw [hc, List.cons_append, List.cons.injEq] at he
    rw [← he.1]
    exact hs
  have hacc : accum false false false true (c :: (r' ++ r)) = (l.taken, r) := by
    rw [← List.cons_append, ← hc]
    exact accum_literal h hr
  have hconv : convert l.taken = if |rnd l.value| < 2 ^ 1024 then some (rnd l.value) else none := by
    simp only [convert, strtod_literal h, toDouble]
  simp only [extract, Bool.or_self, Bool.false_eq_true, if_false, hdrop, hacc, hconv]
  by_cases hx : |rnd l.value| < 2 ^ 1024 <;> simp [hx]

/-! ### Files of numbers -/

/-- A file: numbers, each after white space, and white space at the end. -/
def render : List (List Char × Literal) → List Char → List Char
  | [], tail => tail
  | w :: ws, tail => w.1 ++ (w.2.text ++ render ws tail)

/-- The numbers are written correctly, fit into doubles, and there is white space between them. -/
structure Words (ws : List (List Char × Literal)) : Prop where
  valid : ∀ w ∈ ws, w.2.Valid
  fits : ∀ w ∈ ws, |rnd w.2.value| < 2 ^ 1024
  blank : ∀ w ∈ ws, Blank w.1
  apart : ∀ w ∈ ws.tail, w.1 ≠ []

/-- The doubles in the file. -/
def values (ws : List (List Char × Literal)) : List ℚ := ws.map fun w => rnd w.2.value

/-- What a relation is, given its eight numbers. -/
def Means (v : List ℚ) (r : Relation) : Prop :=
  ∃ t1 t2 x y z roll pitch yaw : ℚ, v = [t1, t2, x, y, z, roll, pitch, yaw] ∧
    r.expected = ⟨⟨x, y, z⟩, rollPitchYaw roll pitch yaw⟩ ∧
    (∃ d, fromSeconds t1 = some d ∧ r.timestamp1 = 621355968000000000 + d.count) ∧
    ∃ d, fromSeconds t2 = some d ∧ r.timestamp2 = 621355968000000000 + d.count

theorem Words.tail {w : List Char × Literal} {ws : List (List Char × Literal)} (h : Words (w :: ws)) : Words ws :=
  ⟨fun x hx => h.valid x (List.mem_cons_of_mem _ hx), fun x hx => h.fits x (List.mem_cons_of_mem _ hx),
    fun x hx => h.blank x (List.mem_cons_of_mem _ hx), fun x hx => h.apart x (List.mem_of_mem_tail hx)⟩

theorem stops_blank {t : List Char} (h : Blank t) : Stops t := by
  cases t with
  | nil => exact Or.inl rfl
  | cons c t => exact Or.inr ⟨c, t, rfl, h c List.mem_cons_self⟩

/-- After a number comes white space or the end of the file, or what comes after the numbers. -/
theorem stops_render {w : List Char × Literal} {ws : List (List Char × Literal)} (h : Words (w :: ws)) {t : List Char}
    (ht : Stops t) : Stops (render ws t) := by
  cases ws with
  | nil => exact ht
  | cons w' ws =>
    have hne : w'.1 ≠ [] := h.apart w' List.mem_cons_self
    obtain ⟨c, r, hc⟩ := List.exists_cons_of_ne_nil hne
    refine Or.inr ⟨c, r ++ (w'.2.text ++ render ws t), by simp [render, hc], ?_⟩
    exact h.blank w' (List.mem_cons_of_mem _ List.mem_cons_self) c (by rw [hc]; exact List.mem_cons_self)

/-- A failed stream stays as it is. -/
theorem extractMany_failed {n : Nat} : ∀ {s : Stream}, s.fail = true →
    (extractMany n s).2 = s ∧ (0 < n → (extractMany n s).1 = none) := by
  induction n with
  | zero => intro s _; exact ⟨rfl, by simp⟩
  | succ n ih =>
    intro s hs
    have he : extract s = (none, s) := by
      obtain ⟨a, b, c⟩ := s
      simp only at hs
      subst hs
      simp [extract]
    simp only [extractMany, he]
    exact ⟨(ih hs).1, fun _ => trivial⟩

/-- An extraction from a stream that has failed before the end or has nothing left. -/
theorem extractMany_none {n : Nat} {s s' : Stream} (h : extract s = (none, s')) (hf : s'.fail = true) :
    extractMany (n + 1) s = (none, s') := by
  have := (extractMany_failed (n := n) hf).1
  simp only [extractMany, h]
  rw [this]

theorem extractMany_some {n : Nat} {s s' : Stream} {x : ℚ} (h : extract s = (some x, s')) :
    extractMany (n + 1) s = ((extractMany n s').1.map (x :: ·), (extractMany n s').2) := by
  simp only [extractMany, h]
  cases (extractMany n s').1 <;> rfl

/-- A stream at this text. -/
def At (s : Stream) (t : List Char) : Prop := s.rest = t ∧ s.fail = false ∧ (s.eof = true → t = [])

/-- Reading numbers that are there. -/
theorem many_there {n : Nat} : ∀ {ws : List (List Char × Literal)} {t : List Char} {s : Stream}, Words ws → Stops t →
    n ≤ ws.length → At s (render ws t) → (extractMany n s).1 = some ((values ws).take n) ∧
      At (extractMany n s).2 (render (ws.drop n) t) := by
  induction n with
  | zero =>
    intro ws t s _ _ _ hs
    exact ⟨rfl, hs⟩
  | succ n ih =>
    intro ws t s hw ht hn hs
    cases ws with
    | nil => simp at hn
    | cons w ws =>
      obtain ⟨h1, h2, h3⟩ := hs
      have hne : render (w :: ws) t ≠ [] := by
        obtain ⟨c, r, hc, -⟩ := text_head (hw.valid w List.mem_cons_self)
        simp [render, hc]
      have he : s.eof = false := by
        cases h : s.eof with
        | false => rfl
        | true => exact absurd (h3 h) hne
      have hs' : s = ⟨w.1 ++ (w.2.text ++ render ws t), false, false⟩ := by
        obtain ⟨a, b, c⟩ := s
        simp only at h1 h2 he
        rw [h1, h2, he]
        rfl
      have hx := number (hw.valid w List.mem_cons_self) (hw.blank w List.mem_cons_self) (stops_render hw ht)
      rw [← hs'] at hx
      simp only [hw.fits w List.mem_cons_self, if_true, not_true_eq_false, decide_false] at hx
      have hat : At ⟨render ws t, (render ws t).isEmpty, false⟩ (render ws t) := ⟨rfl, rfl, by simp⟩
      obtain ⟨i1, i2⟩ := ih (s := ⟨render ws t, (render ws t).isEmpty, false⟩) hw.tail ht (by simpa using hn) hat
      rw [extractMany_some hx]
      refine ⟨?_, by simpa using i2⟩
      rw [i1]
      simp [values]

/-- Reading white space to the end. -/
theorem extract_blank {s : Stream} {t : List Char} (hs : At s t) (ht : Blank t) :
    ∃ s', extract s = (none, s') ∧ s'.fail = true ∧ s'.eof = true := by
  obtain ⟨h1, h2, h3⟩ := hs
  cases he : s.eof with
  | true => exact ⟨{ s with fail := true }, by simp [extract, he], rfl, he⟩
  | false =>
    refine ⟨⟨[], true, true⟩, ?_, rfl, rfl⟩
    have : s.rest.dropWhile isSpace = [] := by
      rw [h1]
      have := dropWhile_blank (r := []) ht (by simp)
      simpa using this
    simp [extract, he, h2, this]

/-- Reading more numbers than there are: what happens is what happens after the last. -/
theorem many_missing {n : Nat} : ∀ {ws : List (List Char × Literal)} {t : List Char} {s : Stream}, Words ws → Stops t →
    ws.length < n → At s (render ws t) → (∀ s, At s t → ∃ s', extract s = (none, s') ∧ s'.fail = true ∧ s'.eof = b) →
    (extractMany n s).1 = none ∧ (extractMany n s).2.eof = b := by
  intro ws t s hw ht hn hs hend
  obtain ⟨k, rfl⟩ : ∃ k, n = ws.length + (k + 1) := ⟨n - ws.length - 1, by omega⟩
  clear hn
  induction ws generalizing s with
  | nil =>
    obtain ⟨s', h1, h2, h3⟩ := hend s hs
    simp only [List.length_nil, Nat.zero_add]
    rw [extractMany_none h1 h2]
    exact ⟨rfl, h3⟩
  | cons w ws ih =>
    have hne : render (w :: ws) t ≠ [] := by
      obtain ⟨c, r, hc, -⟩ := text_head (hw.valid w List.mem_cons_self)
      simp [render, hc]
    obtain ⟨h1, h2, h3⟩ := hs
    have he : s.eof = false := by
      cases h : s.eof with
      | false => rfl
      | true => exact absurd (h3 h) hne
    have hs' : s = ⟨w.1 ++ (w.2.text ++ render ws t), false, false⟩ := by
      obtain ⟨a, b, c⟩ := s
      simp only at h1 h2 he
      rw [h1, h2, he]
      rfl
    have hx := number (hw.valid w List.mem_cons_self) (hw.blank w List.mem_cons_self) (stops_render hw ht)
    rw [← hs'] at hx
    simp only [hw.fits w List.mem_cons_self, if_true, not_true_eq_false, decide_false] at hx
    obtain ⟨i1, i2⟩ := ih (s := ⟨render ws t, (render ws t).isEmpty, false⟩) hw.tail ⟨rfl, rfl, by simp⟩
    rw [show (w :: ws).length + (k + 1) = (ws.length + (k + 1)) + 1 by simp; omega, extractMany_some hx]
    exact ⟨by rw [i1]; rfl, i2⟩

/-! ### Times -/

theorem unix_some {t : ℚ} {c : Time} (h : unixToCommonTime t = some c) :
    ∃ d, fromSeconds t = some d ∧ toUniversal c = 621355968000000000 + d.count := by
  simp only [unixToCommonTime, Option.bind_eq_bind, Option.bind_eq_some_iff, plus, Option.map_eq_some_iff,
    Ticks.toInt64_eq_some] at h
  obtain ⟨d, hd, k, ⟨-, rfl⟩, rfl⟩ := h
  exact ⟨d, hd, rfl⟩

/-- Times of up to 8·10¹¹ seconds can be represented. -/
theorem unix_defined {t : ℚ} (h : |t| ≤ 800000000000) : ∃ c, unixToCommonTime t = some c := by
  obtain ⟨d, hd⟩ := Ticks.fromSeconds_defined (s := t) (by linarith)
  have hb : |(d.count : ℚ) - t * 10000000| ≤ 1024 := by
    by_cases h53 : |t * 10000000| < 2 ^ 53
    · linarith [Ticks.fromSeconds_error_partial hd h53]
    · have h1 := Ticks.fromSeconds_error_long hd (not_lt.1 h53)
      have h2 := Ticks.log_lt (e := 62) (x := t * 10000000) (by
        rw [abs_mul, abs_of_pos (show (0 : ℚ) < 10000000 by norm_num)]
        calc |t| * 10000000 ≤ 800000000000 * 10000000 := by linarith
          _ < 2 ^ ((62 : Int) + 1) := by norm_num) (by norm_num)
      refine h1.trans ?_
      calc (2 : ℚ) ^ (Int.log 2 |t * 10000000| - 53) ≤ 2 ^ (10 : Int) := zpow_le_zpow_right₀ (by norm_num) (by omega)
        _ = 1024 := by norm_num
  have hI : Int64 (621355968000000000 + d.count) := by
    rw [abs_le] at hb h
    constructor
    · have : (-9223372036854775808 : ℚ) ≤ ((621355968000000000 + d.count : Int) : ℚ) := by push_cast; linarith [hb.1, h.1]
      exact_mod_cast this
    · have : ((621355968000000000 + d.count : Int) : ℚ) ≤ 9223372036854775807 := by push_cast; linarith [hb.2, h.2]
      exact_mod_cast this
  refine ⟨⟨⟨621355968000000000 + d.count⟩⟩, ?_⟩
  have : toInt64 (unixEpoch + d.count) = some (621355968000000000 + d.count) := Ticks.toInt64_eq_some.2 ⟨hI, rfl⟩
  simp [unixToCommonTime, hd, plus, fromUniversal, this]

/-- C122: what a timestamp is. Up to the year 2027 it is off by one tick of 100 ns at most. -/
theorem times {v : List ℚ} {r : Relation} (h : Means v r) : ∃ t1 t2 rest, v = t1 :: t2 :: rest ∧
    (|t1| ≤ 1800000000 → |(r.timestamp1 : ℚ) - (719162 * 86400 + t1) * 10000000| ≤ 1) ∧
    (|t2| ≤ 1800000000 → |(r.timestamp2 : ℚ) - (719162 * 86400 + t2) * 10000000| ≤ 1) := by
  have main : ∀ {t : ℚ} {d : Ticks.Duration} {n : Int}, fromSeconds t = some d → n = 621355968000000000 + d.count →
      |t| ≤ 1800000000 → |(n : ℚ) - (719162 * 86400 + t) * 10000000| ≤ 1 := by
    intro t d n hd hn ht
    have := Ticks.fromSeconds_error_one hd (by
      rw [abs_mul, abs_of_pos (show (0 : ℚ) < 10000000 by norm_num)]
      calc |t| * 10000000 ≤ 1800000000 * 10000000 := by linarith
        _ < 2 ^ 54 := by norm_num)
    rw [hn]
    push_cast
    rwa [show ((621355968000000000 : ℚ) + d.count) - (719162 * 86400 + t) * 10000000 = d.count - t * 10000000 by ring]
  obtain ⟨t1, t2, x, y, z, ro, pi, ya, rfl, -, ⟨d1, h1, e1⟩, ⟨d2, h2, e2⟩⟩ := h
  exact ⟨t1, t2, _, rfl, main h1 e1, main h2 e2⟩

theorem relation_some {v : List ℚ} {r : Relation} (h : relation v = some r) : Means v r := by
  unfold relation at h
  split at h
  · rename_i t1 t2 x y z ro pi ya
    simp only [Option.bind_eq_bind, Option.bind_eq_some_iff, Option.some.injEq] at h
    obtain ⟨a, ha, b, hb, rfl⟩ := h
    exact ⟨t1, t2, x, y, z, ro, pi, ya, rfl, rfl, unix_some ha, unix_some hb⟩
  · cases h

theorem relation_defined {v : List ℚ} (hl : v.length = 8) (ht : ∀ i, i < 2 → ∀ t, v[i]? = some t → |t| ≤ 800000000000) :
    ∃ r, relation v = some r := by
  match v, hl with
  | [t1, t2, x, y, z, ro, pi, ya], _ =>
    obtain ⟨a, ha⟩ := unix_defined (ht 0 (by omega) t1 rfl)
    obtain ⟨b, hb⟩ := unix_defined (ht 1 (by omega) t2 rfl)
    simp only [relation, ha, hb, Option.bind_eq_bind, Option.bind_some]
    exact ⟨_, rfl⟩

/-! ### Whole files -/

/-- The times of complete relations are in range. -/
def InRange (v : List ℚ) : Prop :=
  ∀ i, i < v.length / 8 → ∀ j, j < 2 → ∀ t, v[8 * i + j]? = some t → |t| ≤ 800000000000

theorem render_length {ws : List (List Char × Literal)} (h : Words ws) (t : List Char) : ws.length ≤ (render ws t).length := by
  induction ws with
  | nil => simp
  | cons w ws ih =>
    obtain ⟨c, r, hc, -⟩ := text_head (h.valid w List.mem_cons_self)
    have := ih h.tail
    simp only [render, hc, List.length_append, List.length_cons]
    omega

theorem Words.drop {ws : List (List Char × Literal)} (h : Words ws) (n : Nat) : Words (ws.drop n) := by
  induction n generalizing ws with
  | zero => exact h
  | succ n ih =>
    cases ws with
    | nil => exact h
    | cons w ws => exact ih h.tail

theorem readLoop_none {fuel : Nat} {s s' : Stream} (h : extractMany 8 s = (none, s')) :
    readLoop (fuel + 1) s = if s'.eof then some [] else none := by
  unfold readLoop
  rw [h]

theorem readLoop_some {fuel : Nat} {s s' : Stream} {xs : List ℚ} (h : extractMany 8 s = (some xs, s')) :
    readLoop (fuel + 1) s = (relation xs).bind fun r => (readLoop fuel s').bind fun rs => some (r :: rs) := by
  conv_lhs => unfold readLoop
  rw [h]
  rfl

theorem readLoop_words {fuel : Nat} : ∀ {ws : List (List Char × Literal)} {t : List Char} {s : Stream}, Words ws → Stops t →
    ws.length < fuel → At s (render ws t) → InRange (values ws) →
    (∀ s, At s t → ∃ s', extract s = (none, s') ∧ s'.fail = true ∧ s'.eof = true) →
    ∃ rs, readLoop fuel s = some rs ∧ rs.length = ws.length / 8 ∧
      ∀ i (hi : i < rs.length), Means (((values ws).drop (8 * i)).take 8) rs[i] := by
  induction fuel with
  | zero => intro ws t s _ _ h; omega
  | succ fuel ih =>
    intro ws t s hw ht hf hs hr hend
    by_cases hn : ws.length < 8
    · obtain ⟨h1, h2⟩ := many_missing hw ht hn hs hend
      refine ⟨[], ?_, by simp; omega, by simp⟩
      rw [readLoop_none (Prod.ext h1 rfl), h2]
      rfl
    · obtain ⟨h1, h2⟩ := many_there (n := 8) hw ht (by omega) hs
      have hlen : (values ws).length = ws.length := by simp [values]
      obtain ⟨r, hrel⟩ := relation_defined (v := (values ws).take 8) (by rw [List.length_take, hlen]; omega) (by
        intro i hi x hx
        refine hr 0 (by rw [hlen]; omega) i hi x ?_
        rw [List.getElem?_take_of_lt (by omega)] at hx
        simpa using hx)
      have hdrop : values (ws.drop 8) = (values ws).drop 8 := by simp [values, List.map_drop]
      obtain ⟨rs, i1, i2, i3⟩ := ih (hw.drop 8) ht (by rw [List.length_drop]; omega) h2 (by
        intro i hi j hj x hx
        rw [hdrop] at hi hx
        rw [List.length_drop] at hi
        refine hr (i + 1) (by omega) j hj x ?_
        rw [List.getElem?_drop] at hx
        rw [← hx]
        congr 1
        omega) hend
      refine ⟨r :: rs, ?_, ?_, ?_⟩
      · rw [readLoop_some (Prod.ext h1 rfl), hrel, Option.bind_some, i1]
        rfl
      · rw [List.length_drop] at i2
        simp only [List.length_cons, i2]
        omega
      · intro i hi
        cases i with
        | zero => simpa using relation_some hrel
        | succ i =>
          have := i3 i (by simpa using hi)
          rw [hdrop, List.drop_drop] at this
          rw [List.getElem_cons_succ, show 8 * (i + 1) = 8 + 8 * i by ring]
          exact this

/-- C122, files of numbers: each eight numbers are a relation, in order. If the file ends within a relation, that one is left
out without notice. -/
theorem reads {ws : List (List Char × Literal)} {t : List Char} (h : Words ws) (ht : Blank t) (hr : InRange (values ws)) :
    ∃ rs, readFile (some (render ws t)) = some rs ∧ rs.length = ws.length / 8 ∧
      ∀ i (hi : i < rs.length), Means (((values ws).drop (8 * i)).take 8) rs[i] :=
  readLoop_words h (stops_blank ht) (by have := render_length h t; omega) ⟨rfl, rfl, by simp⟩ hr
    (fun _ hs => extract_blank hs ht)

theorem readLoop_abort {fuel : Nat} : ∀ {ws : List (List Char × Literal)} {t : List Char} {s : Stream}, Words ws → Stops t →
    At s (render ws t) → (∀ s, At s t → ∃ s', extract s = (none, s') ∧ s'.fail = true ∧ s'.eof = false) →
    readLoop fuel s = none := by
  induction fuel with
  | zero => intros; rfl
  | succ fuel ih =>
    intro ws t s hw ht hs hend
    by_cases hn : ws.length < 8
    · obtain ⟨h1, h2⟩ := many_missing hw ht hn hs hend
      rw [readLoop_none (Prod.ext h1 rfl), h2]
      rfl
    · obtain ⟨h1, h2⟩ := many_there (n := 8) hw ht (by omega) hs
      have := ih (hw.drop 8) ht h2 hend
      rw [readLoop_some (Prod.ext h1 rfl), this]
      cases relation ((values ws).take 8) <;> rfl

/-- C122: anything that does not begin like a number, like a comment, aborts, wherever in the file it is. -/
theorem garbage_aborts {ws : List (List Char × Literal)} (h : Words ws) {sep : List Char} (hsep : Blank sep) (hne : sep ≠ [])
    {c : Char} (hc : isSpace c = false ∧ isDigit c = false ∧ c ≠ '+' ∧ c ≠ '-' ∧ c ≠ '.') (more : List Char) :
    readFile (some (render ws (sep ++ c :: more))) = none := by
  have hst : Stops (sep ++ c :: more) := by
    obtain ⟨a, b, hab⟩ := List.exists_cons_of_ne_nil hne
    exact Or.inr ⟨a, b ++ c :: more, by rw [hab]; rfl, hsep a (by rw [hab]; exact List.mem_cons_self)⟩
  refine readLoop_abort h hst ⟨rfl, rfl, by simp⟩ ?_
  intro s hs
  obtain ⟨h1, h2, h3⟩ := hs
  have he : s.eof = false := by
    cases h : s.eof with
    | false => rfl
    | true => exact absurd (h3 h) (by simp)
  have hd : s.rest.dropWhile isSpace = c :: more := by
    rw [h1, dropWhile_blank hsep]
    intro a b hab
    simp only [List.cons.injEq] at hab
    rw [← hab.1]
    exact hc.1
  have hacc : accum false false false true (c :: more) = ([], c :: more) := by
    simp [accum, hc.2.1, hc.2.2.1, hc.2.2.2.1, hc.2.2.2.2]
  refine ⟨⟨c :: more, false, true⟩, ?_, rfl, rfl⟩
  simp only [extract, he, h2, Bool.or_self, Bool.false_eq_true, if_false, hd, hacc]
  rfl

/-- C122: without a file there are no relations to be found; the program aborts. -/
theorem no_file : readFile none = none := by
  have h := extractMany_failed (n := 8) (s := ⟨[], false, true⟩) rfl
  have he : extractMany 8 ⟨[], false, true⟩ = (none, ⟨[], false, true⟩) := Prod.ext (h.2 (by omega)) h.1
  unfold readFile
  rw [readLoop_none he]
  rfl

/-! ### Rotations -/

theorem unit_aroundX (t : ℝ) : (aroundX t).Unit := by
  have := Real.sin_sq_add_cos_sq (t / 2)
  simp only [Quat.Unit, aroundX]
  linear_combination this

theorem unit_aroundY (t : ℝ) : (aroundY t).Unit := by
  have := Real.sin_sq_add_cos_sq (t / 2)
  simp only [Quat.Unit, aroundY]
  linear_combination this

theorem double (t : ℝ) : Real.cos t = Real.cos (t / 2) ^ 2 - Real.sin (t / 2) ^ 2 ∧
    Real.sin t = 2 * Real.sin (t / 2) * Real.cos (t / 2) := by
  constructor
  · rw [← Real.cos_two_mul']; ring_nf
  · rw [← Real.sin_two_mul]; ring_nf

theorem aroundX_rotate (t : ℝ) (v : V3) : (aroundX t).rotate v =
    ⟨v.x, Real.cos t * v.y - Real.sin t * v.z, Real.sin t * v.y + Real.cos t * v.z⟩ := by
  obtain ⟨h1, h2⟩ := double t
  have h3 := Real.sin_sq_add_cos_sq (t / 2)
  rw [Rigid.rotate_unit (unit_aroundX t), h1, h2]
  ext
  · simp only [aroundX]; linear_combination v.x * h3
  · simp only [aroundX]; ring
  · simp only [aroundX]; ring

theorem aroundY_rotate (t : ℝ) (v : V3) : (aroundY t).rotate v =
    ⟨Real.cos t * v.x + Real.sin t * v.z, v.y, Real.cos t * v.z - Real.sin t * v.x⟩ := by
  obtain ⟨h1, h2⟩ := double t
  have h3 := Real.sin_sq_add_cos_sq (t / 2)
  rw [Rigid.rotate_unit (unit_aroundY t), h1, h2]
  ext
  · simp only [aroundY]; ring
  · simp only [aroundY]; linear_combination v.y * h3
  · simp only [aroundY]; ring

/-- C122: the rotation given by roll, pitch and yaw is a unit quaternion and turns by roll around x, then by pitch around y, then
by yaw around z. -/
theorem rotation_of (roll pitch yaw : ℝ) (v : V3) :
    (rollPitchYaw roll pitch yaw).Unit ∧
    (rollPitchYaw roll pitch yaw).rotate v =
      let a : V3 := ⟨v.x, Real.cos roll * v.y - Real.sin roll * v.z, Real.sin roll * v.y + Real.cos roll * v.z⟩
      let b : V3 := ⟨Real.cos pitch * a.x + Real.sin pitch * a.z, a.y, Real.cos pitch * a.z - Real.sin pitch * a.x⟩
      ⟨Real.cos yaw * b.x - Real.sin yaw * b.y, Real.sin yaw * b.x + Real.cos yaw * b.y, b.z⟩ := by
  have hx := unit_aroundX roll
  have hy := unit_aroundY pitch
  have hz := Rigid.unit_aroundZ yaw
  refine ⟨Rigid.unit_mul (Rigid.unit_mul hz hy) hx, ?_⟩
  unfold rollPitchYaw
  rw [Rigid.rotate_mul (Rigid.unit_mul hz hy) hx, Rigid.rotate_mul hz hy, Rigid.aroundZ_rotate, aroundY_rotate, aroundX_rotate]

/-- C122: the yaw of the rotation is the given one, unless the pitch is a quarter turn or more. -/
theorem yaw_of {roll pitch yaw : ℝ} (hp : 0 < Real.cos pitch) (hy : yaw ∈ Set.Ioc (-Real.pi) Real.pi) :
    getYaw (rollPitchYaw roll pitch yaw) = yaw := by
  unfold getYaw
  rw [(rotation_of roll pitch yaw ⟨1, 0, 0⟩).2]
  simp only [mul_zero, mul_one, sub_zero, add_zero]
  have : (⟨Real.cos yaw * Real.cos pitch, Real.sin yaw * Real.cos pitch⟩ : ℂ) =
      (Real.cos pitch : ℂ) * (Complex.cos yaw + Complex.sin yaw * Complex.I) := by
    apply Complex.ext <;> simp [Complex.cos_ofReal_re, Complex.sin_ofReal_re, mul_comm]
  rw [this]
  exact Complex.arg_mul_cos_add_sin_mul_I hp hy

/-! ### Examples -/

/-- `-12.50E-1`. -/
def exLiteral : Literal := ⟨['-'], ['1', '2'], some ['5', '0'], some ('E', ['-'], ['1'])⟩

theorem exLiteral_valid : exLiteral.Valid := by
  constructor <;> simp [exLiteral, Literal.decimals, isDigit]

example : String.ofList exLiteral.text = "-12.50E-1" ∧ exLiteral.value = -5 / 4 := by
  refine ⟨rfl, ?_⟩
  have h1 : digits ['1', '2'] = 12 := rfl
  have h2 : digits ['5', '0'] = 50 := rfl
  have h3 : digits ['1'] = 1 := rfl
  simp only [exLiteral, Literal.value, Literal.decimals, Option.getD_some, h1, h2, h3, signOf]
  norm_num

/-- A digit. -/
def exDigit (c : Char) : Literal := { int := [c] }

/-- A line `1 2 3 4 5 0 0 1` and, after it, the beginning `6 7` of another. -/
def exWords : List (List Char × Literal) :=
  [([], exDigit '1'), ([' '], exDigit '2'), ([' '], exDigit '3'), (['\t'], exDigit '4'), ([' '], exDigit '5'),
    ([' '], exDigit '0'), ([' ', ' '], exDigit '0'), ([' '], exDigit '1'), (['\n'], exDigit '6'), ([' '], exDigit '7')]

theorem value_exDigit (c : Char) : (exDigit c).value = ((c.toNat - 48 : Nat) : ℚ) := by
  simp [Literal.value, exDigit, Literal.decimals, signOf, digits]

theorem rnd_exDigit {c : Char} (h : isDigit c = true) : rnd (exDigit c).value = ((c.toNat - 48 : Nat) : ℚ) := by
  rw [value_exDigit]
  have hb : c.toNat - 48 ≤ 9 := by
    simp only [isDigit, decide_eq_true_eq] at h
    omega
  have := Ticks.rnd_int (n := ((c.toNat - 48 : Nat) : Int)) (by
    have : (((c.toNat - 48 : Nat) : Int) : ℚ) ≤ 9 := by exact_mod_cast hb
    rw [abs_of_nonneg (by positivity)]
    linarith [show (9 : ℚ) < 2 ^ 53 by norm_num])
  exact_mod_cast this

theorem exWords_words : Words exWords := by
  have hd : ∀ w ∈ exWords, ∃ c, isDigit c = true ∧ w.2 = exDigit c := by
    simp only [exWords, List.forall_mem_cons, List.not_mem_nil, false_imp_iff, implies_true, and_true]
    exact ⟨⟨_, by decide, rfl⟩, ⟨_, by decide, rfl⟩, ⟨_, by decide, rfl⟩, ⟨_, by decide, rfl⟩, ⟨_, by decide, rfl⟩,
      ⟨_, by decide, rfl⟩, ⟨_, by decide, rfl⟩, ⟨_, by decide, rfl⟩, ⟨_, by decide, rfl⟩, ⟨_, by decide, rfl⟩⟩
  refine ⟨?_, ?_, ?_, ?_⟩
  · intro w hw
    obtain ⟨c, hc, he⟩ := hd w hw
    rw [he]
    constructor <;> simp [exDigit, Literal.decimals, hc]
  · intro w hw
    obtain ⟨c, hc, he⟩ := hd w hw
    rw [he, rnd_exDigit hc]
    have hb : c.toNat - 48 ≤ 9 := by
      simp only [isDigit, decide_eq_true_eq] at hc
      omega
    have : ((c.toNat - 48 : Nat) : ℚ) ≤ 9 := by exact_mod_cast hb
    rw [abs_of_nonneg (by positivity)]
    calc ((c.toNat - 48 : Nat) : ℚ) ≤ 9 := this
      _ < 2 ^ 4 := by norm_num
      _ ≤ 2 ^ 1024 := pow_le_pow_right₀ (by norm_num) (by norm_num)
  · simp only [Blank]
    decide
  · decide

theorem exWords_values : values exWords = [1, 2, 3, 4, 5, 0, 0, 1, 6, 7] := by
  have h : ∀ (c : Char) (n : Nat), isDigit c = true → c.toNat - 48 = n → rnd (exDigit c).value = n :=
    fun c n hc hn => by rw [rnd_exDigit hc, hn]
  simp only [values, exWords, List.map_cons, List.map_nil, h '1' 1 (by decide) rfl, h '2' 2 (by decide) rfl,
    h '3' 3 (by decide) rfl, h '4' 4 (by decide) rfl, h '5' 5 (by decide) rfl, h '0' 0 (by decide) rfl,
    h '6' 6 (by decide) rfl, h '7' 7 (by decide) rfl]
  norm_num

/-- There is one relation; the incomplete second line is left out and nothing is said about it. -/
example : String.ofList (render exWords ['\n']) = "1 2 3\t4 5 0  0 1\n6 7\n" ∧
    ∃ r, readFile (some (render exWords ['\n'])) = some [r] ∧ r.expected = ⟨⟨3, 4, 5⟩, rollPitchYaw 0 0 1⟩ := by
  refine ⟨rfl, ?_⟩
  obtain ⟨rs, h1, h2, h3⟩ := reads exWords_words (t := ['\n']) (by simp [Blank, isSpace]) (by
    rw [exWords_values]
    intro i hi j hj t ht
    simp only [List.length_cons, List.length_nil] at hi
    obtain rfl : i = 0 := by omega
    obtain rfl | rfl : j = 0 ∨ j = 1 := by omega
    · simp at ht; subst ht; norm_num
    · simp at ht; subst ht; norm_num)
  match rs, h2 with
  | [r], _ =>
    refine ⟨r, h1, ?_⟩
    obtain ⟨t1, t2, x, y, z, ro, pi, ya, he, hx, -⟩ := h3 0 (by simp)
    rw [exWords_values] at he
    simp only [Nat.mul_zero, List.drop_zero, List.take_succ_cons, List.take_zero, List.cons.injEq, and_true] at he
    obtain ⟨-, -, rfl, rfl, rfl, rfl, rfl, rfl⟩ := he
    simpa using hx

/-- A comment aborts. -/
example : readFile (some (render exWords "\n# done".toList)) = none :=
  garbage_aborts exWords_words (sep := ['\n']) (by simp [Blank, isSpace]) (by decide) (c := '#') (by decide) " done".toList

/-- A file that ends in a sign, or in half of an exponent, does not: it ends there. -/
example : readFile (some ['-']) = some [] ∧ readFile (some ['1', 'e']) = some [] := by
  have h1 : extract ⟨['-'], false, false⟩ = (none, ⟨[], true, true⟩) := rfl
  have h2 : extract ⟨['1', 'e'], false, false⟩ = (none, ⟨[], true, true⟩) := rfl
  constructor
  · exact readLoop_none (fuel := 1) (extractMany_none h1 rfl)
  · exact readLoop_none (fuel := 2) (extractMany_none h2 rfl)

/-- With a pitch of more than a quarter turn the yaw is another one. -/
example : getYaw (rollPitchYaw 0 Real.pi 0) = Real.pi := by
  unfold getYaw
  rw [(rotation_of 0 Real.pi 0 ⟨1, 0, 0⟩).2]
  simp only [Real.cos_pi, Real.sin_pi, Real.cos_zero, Real.sin_zero, mul_zero, mul_one, sub_zero, add_zero, zero_mul, one_mul]
  have : (⟨-1, 0⟩ : ℂ) = -1 := by apply Complex.ext <;> simp
  rw [this, Complex.arg_neg_one]

/-! ### Where numbers end -/

/-- White space is what the C locale says: tab to carriage return and blank. -/
theorem white_space (c : Char) : isSpace c = true ↔ (9 ≤ c.toNat ∧ c.toNat ≤ 13) ∨ c.toNat = 32 := by
  have key : ∀ d : Char, c = d ↔ c.toNat = d.toNat := fun d => ⟨fun h => by rw [h], fun h => Char.toNat_inj.1 h⟩
  have e1 : (' ' : Char).toNat = 32 := rfl
  have e2 : ('\t' : Char).toNat = 9 := rfl
  have e3 : ('\n' : Char).toNat = 10 := rfl
  have e4 : ('\x0b' : Char).toNat = 11 := rfl
  have e5 : ('\x0c' : Char).toNat = 12 := rfl
  have e6 : ('\r' : Char).toNat = 13 := rfl
  simp only [isSpace, Bool.or_eq_true, beq_iff_eq, key, e1, e2, e3, e4, e5, e6]
  omega

/-- A number ends before a second point and before a point in the exponent. -/
theorem second_point (m d s : Bool) (h : d = true ∨ s = true) (j : Bool) (r : List Char) : accum m d s j ('.' :: r) = ([], '.' :: r) := by
  rcases h with rfl | rfl <;> cases j <;> simp [accum, isDigit] <;> rfl

/-- Of `1.2.3` the first number is `1.2`. -/
example : accum false false false true "1.2.3".toList = ("1.2".toList, ".3".toList) := by decide +kernel

end Verif.RelationsText
