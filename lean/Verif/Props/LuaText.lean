import Verif.LuaTextLemmas
import Verif.Props.FloatCells

/-!
# C108: A printed configuration can be read back
-/

namespace Verif.LuaText

/-! ### What is claimed -/

/-- A key that can be printed: a name, or a positive integer such that all smaller ones are keys too. -/
def GoodKey (keys : List Key) : Key → Prop
  | .str s => isName s = true
  | .num i => 1 ≤ i ∧ ∀ j, 1 ≤ j → j ≤ i → .num j ∈ keys
  | .other _ => False

/-- A value that can be printed: no functions and so on, no NaN, and tables with good keys only. -/
inductive Good : Value → Prop where
  | bool (b) : Good (.bool b)
  | str {s : Text} (h : ∀ c ∈ s, c.toNat ≤ 255) : Good (.str s)
  | fin (neg) {q : ℚ} (h : 0 ≤ q) : Good (.num neg (.fin q))
  | inf (neg) : Good (.num neg .inf)
  | table {es : List (Key × Value)} (nodup : (es.map Prod.fst).Nodup) (keys : ∀ k ∈ es.map Prod.fst, GoodKey (es.map Prod.fst) k)
      (vals : ∀ e ∈ es, Good e.2) : Good (.table es)

/-- The same value except that finite numbers are changed by `r`; tables have the same keys, with the same values. -/
inductive Same (r : ℚ → ℚ) : Value → Value → Prop where
  | bool (b) : Same r (.bool b) (.bool b)
  | str (s) : Same r (.str s) (.str s)
  | fin (neg) (q) : Same r (.num neg (.fin q)) (.num neg (.fin (r q)))
  | inf (neg) : Same r (.num neg .inf) (.num neg .inf)
  | table {es es' : List (Key × Value)} (keys : ∀ k, k ∈ es.map Prod.fst ↔ k ∈ es'.map Prod.fst)
      (vals : ∀ k v v', get es k = some v → get es' k = some v' → Same r v v') : Same r (.table es) (.table es')

/-- The double nearest to the number with six digits after the point. -/
def reread (fl : ℚ → ℚ) (q : ℚ) : ℚ := fl ((millionths q : ℚ) / 10 ^ 6)

/-- Names cannot be converted to numbers. -/
def NamesAreNoNumbers (T : Lua.ToNumber Text) : Prop := ∀ s, isName s = true → T s = none

/-! ### Texts -/

variable {fl : ℚ → ℚ} {T : Lua.ToNumber Text}

theorem texts_keys (ind : Text) (es : List (Key × Value)) : (texts T ind es).map Prod.fst = es.map Prod.fst := by
  induction es with
  | nil => simp [texts]
  | cons e es ih => obtain ⟨k, v⟩ := e; simp [texts, ih]

theorem texts_length (ind : Text) (es : List (Key × Value)) : (texts T ind es).length = es.length := by
  have := congrArg List.length (texts_keys (T := T) ind es)
  simpa using this

theorem texts_get (ind : Text) (es : List (Key × Value)) (k : Key) : get (texts T ind es) k = (get es k).map (text T ind) := by
  induction es with
  | nil => simp [texts, get_nil]
  | cons e es ih =>
    obtain ⟨k', v⟩ := e
    rw [texts, get_cons, get_cons, ih]
    split <;> simp

theorem arrayOf_map {V W : Type} {t : List (Key × V)} {t' : List (Key × W)} {f : V → W} (h : ∀ k, get t' k = (get t k).map f) :
    ∀ n i, arrayOf t' n i = (arrayOf t n i).map f := by
  intro n
  induction n with
  | zero => intro i; rfl
  | succ n ih =>
    intro i
    simp only [arrayOf, h]
    cases get t (.num i) with
    | none => rfl
    | some v => simp [ih]

theorem arrayOf_get {V : Type} {t : List (Key × V)} : ∀ {n : Nat} {i : Int},
    (∀ m m' : Nat, m' ≤ m → (get t (.num (i + m))).isSome → (get t (.num (i + m'))).isSome) →
    (∀ m : Nat, (get t (.num (i + m))).isSome → m < n) → ∀ m : Nat, (arrayOf t n i)[m]? = get t (.num (i + m)) := by
  intro n
  induction n with
  | zero =>
    intro i _ hb m
    cases h : get t (.num (i + m)) with
    | none => rfl
    | some v => exact absurd (hb m (by rw [h]; rfl)) (by omega)
  | succ n ih =>
    intro i hd hb m
    rw [arrayOf]
    cases h : get t (.num i) with
    | none =>
      cases h' : get t (.num (i + m)) with
      | none => rfl
      | some v =>
        have := hd m 0 (by omega) (by rw [h']; rfl)
        rw [show i + ((0 : Nat) : Int) = i by omega, h] at this
        cases this
    | some v =>
      cases m with
      | zero => rw [show i + ((0 : Nat) : Int) = i by omega, h]; rfl
      | succ m =>
        have e : ∀ a : Nat, i + 1 + (a : Int) = i + ((a + 1 : Nat) : Int) := by intro a; push_cast; omega
        rw [List.getElem?_cons_succ, ih (i := i + 1), e]
        · intro a b hab ha
          rw [e] at ha ⊢
          exact hd _ _ (by omega) ha
        · intro a ha
          rw [e] at ha
          have := hb _ ha
          omega

theorem count_le {keys : List Key} {j : Nat} (h : ∀ i : Int, 1 ≤ i → i ≤ j → Lua.Key.num i ∈ keys) : j ≤ keys.length := by
  have hsub : ((List.range j).map fun m : Nat => (Lua.Key.num ((m : Int) + 1) : Key)) ⊆ keys := by
    intro k hk
    simp only [List.mem_map, List.mem_range] at hk
    obtain ⟨m, hm, rfl⟩ := hk
    exact h _ (by omega) (by omega)
  have hnd : ((List.range j).map fun m : Nat => (Lua.Key.num ((m : Int) + 1) : Key)).Nodup := by
    refine List.Nodup.map ?_ List.nodup_range
    intro a b hab
    simp only [Lua.Key.num.injEq] at hab
    omega
  have := (List.subperm_of_subset hnd hsub).length_le
  simpa using this

/-- The values with the keys 1, 2, …. -/
theorem array_spec {es : List (Key × Value)} (hk : ∀ k ∈ es.map Prod.fst, GoodKey (es.map Prod.fst) k) (m : Nat) :
    (arrayOf es es.length 1)[m]? = get es (.num (1 + m)) := by
  refine arrayOf_get ?_ ?_ m
  · intro a b hab ha
    rw [get_isSome] at ha ⊢
    exact (hk _ ha).2 _ (by omega) (by omega)
  · intro a ha
    rw [get_isSome] at ha
    have := count_le (j := a + 1) (fun i h1 h2 => (hk _ ha).2 i h1 (by push_cast at h2; omega))
    rw [List.length_map] at this
    omega

/-- The keys that are strings. -/
def strKeys {V : Type} (t : List (Key × V)) : List Text := t.filterMap fun e => match e.1 with | .str s => some s | _ => none

theorem mem_strKeys {V : Type} {t : List (Key × V)} {s : Text} : s ∈ strKeys t ↔ .str s ∈ t.map Prod.fst := by
  simp only [strKeys, List.mem_filterMap, List.mem_map]
  constructor
  · rintro ⟨e, he, h⟩
    split at h
    · rename_i k
      exact ⟨e, he, by rw [k, Option.some.inj h]⟩
    · cases h
  · rintro ⟨e, he, h⟩
    exact ⟨e, he, by rw [h]⟩

theorem strKeys_nodup {V : Type} {t : List (Key × V)} (h : (t.map Prod.fst).Nodup) : (strKeys t).Nodup := by
  induction t with
  | nil => simp [strKeys]
  | cons e t ih =>
    obtain ⟨k, v⟩ := e
    rw [List.map_cons, List.nodup_cons] at h
    cases k with
    | str s =>
      have : strKeys ((Lua.Key.str s, v) :: t) = s :: strKeys t := rfl
      rw [this, List.nodup_cons]
      exact ⟨fun hc => h.1 (mem_strKeys.1 hc), ih h.2⟩
    | num i => exact ih h.2
    | other n => exact ih h.2

theorem keysOf_eq {V : Type} (hT : NamesAreNoNumbers T) {t : List (Key × V)} {keys : List Key} (hk : ∀ k ∈ t.map Prod.fst, GoodKey keys k) :
    keysOf T t = some (strKeys t) := by
  induction t with
  | nil => rfl
  | cons e t ih =>
    obtain ⟨k, v⟩ := e
    have ih' := ih fun k hk' => hk k (by simp only [List.map_cons, List.mem_cons]; exact .inr hk')
    have h0 := hk k (by simp)
    cases k with
    | str s =>
      rw [keysOf, hT s h0, ih']
      rfl
    | num i => rw [keysOf, ih']; rfl
    | other n => exact absurd h0 (by simp [GoodKey])

theorem all_some {V : Type} (l : List V) : all (l.map some) = some l := by
  induction l with
  | nil => rfl
  | cons v l ih => simp [all, ih]

/-! ### Reading what was printed -/

/-- The text `t` is read as `w`, whatever follows. -/
structure Reads (fl : ℚ → ℚ) (t : Text) (w : Value) : Prop where
  first : ∃ c r, t = c :: r ∧ isSpace c = false ∧ c ≠ '}'
  noKey : ∀ rest, Stops rest → readKey (t ++ rest) = none
  reads : ∀ n rest, Stops rest → t.length ≤ n → readExp fl n (t ++ rest) = some (some w, rest)

theorem stops_comma (r : Text) : Stops (',' :: r) := by
  intro c r' h
  rw [List.cons.injEq] at h
  rw [← h.1]
  decide

theorem readExp_blank (n : Nat) (s : Text) : readExp fl n (' ' :: s) = readExp fl n s := by
  cases n with
  | zero => rw [readExp, readExp]
  | succ n => rw [readExp, readExp, show skip (' ' :: s) = skip s from rfl]

theorem noKey_first {c : Char} {r : Text} (h : isLetter c = false) : readKey (c :: r) = none := by
  unfold readKey
  dsimp only
  have : isName ((c :: r).takeWhile isWord) = false := by
    rw [List.takeWhile_cons]
    split
    · simp [isName, h]
    · rfl
  rw [this]
  rfl

theorem reads_string {s : Text} (h : ∀ c ∈ s, c.toNat ≤ 255) : Reads fl (quote s) (.str s) := by
  refine ⟨⟨'"', _, rfl, rfl, by decide⟩, fun rest _ => noKey_first rfl, fun n rest _ hn => ?_⟩
  cases n with
  | zero => simp [quote] at hn
  | succ n =>
    unfold quote
    rw [readExp, List.cons_append, List.cons_append, skip_cons (by rfl)]
    simp only
    rw [if_neg (by decide), if_neg (by decide), readSimple, if_pos rfl, List.append_assoc, List.singleton_append,
      readString_escape s rest _ h (by simp)]
    rfl

theorem reads_word {w : Text} {v : Value} {c : Char} {r : Text} (e : w = c :: r) (hc : isLetter c = true) (hw : ∀ x ∈ w, isWord x = true)
    (hk : isName w = false) (hr : ∀ rest, Stops rest → readWord (w ++ rest) = some (some v, rest)) : Reads fl w v := by
  have hsp : isSpace c = false ∧ c ≠ '}' ∧ c ≠ '{' ∧ c ≠ '-' ∧ c ≠ '"' ∧ isDigit c = false := by
    refine ⟨?_, ?_, ?_, ?_, ?_, ?_⟩
    · by_contra hcon
      simp only [Bool.not_eq_false, isSpace, Bool.or_eq_true, decide_eq_true_eq] at hcon
      rcases hcon with ((rfl | rfl) | rfl) | rfl <;> exact absurd hc (by decide)
    · rintro rfl; exact absurd hc (by decide)
    · rintro rfl; exact absurd hc (by decide)
    · rintro rfl; exact absurd hc (by decide)
    · rintro rfl; exact absurd hc (by decide)
    · simp only [isLetter, isDigit, Bool.or_eq_true, Bool.and_eq_true, decide_eq_true_eq] at hc ⊢
      rcases hc with (hc | hc) | rfl
      · simp; omega
      · simp; omega
      · decide
  refine ⟨⟨c, r, e, hsp.1, hsp.2.1⟩, fun rest hs => ?_, fun n rest hs hn => ?_⟩
  · unfold readKey
    dsimp only
    rw [(takeWhile_stop hw fun x y h => (hs x y h).1).1, hk]
    rfl
  · cases n with
    | zero => rw [e] at hn; simp at hn
    | succ n =>
      have := hr rest hs
      rw [e, List.cons_append] at this
      rw [e, readExp, List.cons_append, skip_cons hsp.1]
      simp only
      rw [if_neg hsp.2.2.1, if_neg hsp.2.2.2.1, readSimple, if_neg hsp.2.2.2.2.1, hsp.2.2.2.2.2, hc]
      exact this

theorem reads_bool (b : Bool) : Reads fl (if b then "true".toList else "false".toList) (.bool b) := by
  cases b with
  | true =>
    refine reads_word (c := 't') (r := "rue".toList) rfl rfl (by decide) (by decide) fun rest hs => ?_
    have h := takeWhile_stop (p := isWord) (s := "true".toList) (by decide) fun x y h => (hs x y h).1
    unfold readWord
    dsimp only
    simp only [if_true]
    rw [h.1, h.2, if_pos rfl]
  | false =>
    refine reads_word (c := 'f') (r := "alse".toList) rfl rfl (by decide) (by decide) fun rest hs => ?_
    have h := takeWhile_stop (p := isWord) (s := "false".toList) (by decide) fun x y h => (hs x y h).1
    unfold readWord
    dsimp only
    simp only [Bool.false_eq_true, if_false]
    rw [h.1, h.2, if_neg (by decide), if_pos rfl]

theorem reads_fixed (q : ℚ) : Reads fl (fixed q) (.num false (.fin (reread fl q))) := by
  obtain ⟨d, hd, r, he⟩ := decimal_cons (millionths q / 1000000)
  obtain ⟨h1, -, h3, h4, h5, h6, h7, h8⟩ := digitChar_spec d hd
  have e : fixed q = digitChar d :: (r ++ '.' :: six (millionths q)) := by rw [fixed_eq, he]; rfl
  refine ⟨⟨_, _, e, h3, h8⟩, fun rest hs => by rw [e]; exact noKey_first h4, fun n rest hs hn => ?_⟩
  cases n with
  | zero => rw [e] at hn; simp at hn
  | succ n =>
    have := readNumber_fixed fl q hs
    rw [e, List.cons_append] at this ⊢
    rw [readExp, skip_cons h3]
    simp only
    rw [if_neg h5, if_neg h6, readSimple, if_neg h7, if_pos h1, this]
    rfl

theorem reads_huge : Reads fl "math.huge".toList (.num false .inf) := by
  have e : "math.huge".toList = "math".toList ++ ".huge".toList := rfl
  refine ⟨⟨'m', _, rfl, rfl, by decide⟩, fun rest hs => ?_, fun n rest hs hn => ?_⟩
  · unfold readKey
    dsimp only
    rw [e, List.append_assoc]
    have h := takeWhile_stop (p := isWord) (s := "math".toList) (rest := ".huge".toList ++ rest) (by decide) fun x y h => by
      have : x = '.' := by
        have := congrArg List.head? h
        simpa using this.symm
      rw [this]; rfl
    rw [h.1, h.2]
    rfl
  · cases n with
    | zero => simp at hn
    | succ n =>
      have hw : readWord ("math.huge".toList ++ rest) = some (some (.num false .inf), rest) := by
        rw [e, List.append_assoc]
        have h := takeWhile_stop (p := isWord) (s := "math".toList) (rest := ".huge".toList ++ rest) (by decide) fun x y h => by
          have : x = '.' := by
            have := congrArg List.head? h
            simpa using this.symm
          rw [this]; rfl
        have h' := takeWhile_stop (p := fun c => isWord c || c = '.') (s := ".huge".toList) (rest := rest) (by decide) fun x y hx => by
          obtain ⟨k1, k2, -⟩ := hs x y hx
          simp [k1, k2]
        unfold readWord
        dsimp only
        rw [h.1, h.2, h'.1]
        rw [if_neg (by decide), if_neg (by decide), if_pos rfl, if_pos rfl]
        rfl
      have e' : "math.huge".toList ++ rest = 'm' :: ("ath.huge".toList ++ rest) := rfl
      rw [e'] at hw ⊢
      rw [readExp, skip_cons (by rfl)]
      simp only
      rw [if_neg (by decide), if_neg (by decide), readSimple, if_neg (by decide), show isDigit 'm' = false from rfl, show isLetter 'm' = true from rfl]
      exact hw

theorem reads_sign {t : Text} {m : Mag} (h : Reads fl t (.num false m)) (neg : Bool) : Reads fl (sign neg ++ t) (.num neg m) := by
  cases neg with
  | false => exact h
  | true =>
    refine ⟨⟨'-', t, rfl, rfl, by decide⟩, fun rest hs => noKey_first rfl, fun n rest hs hn => ?_⟩
    cases n with
    | zero => simp [sign] at hn
    | succ n =>
      have e : sign true ++ t ++ rest = '-' :: (t ++ rest) := rfl
      rw [e, readExp, skip_cons (by rfl)]
      simp only
      rw [if_neg (by decide), if_pos trivial, h.reads n rest hs (by simp only [sign, if_true, List.length_append, List.length_singleton] at hn; omega)]
      rfl

/-! ### Tables -/

/-- What reading the fields does to the table. -/
def apply : List (Option Text × Text × Value) → Int → List (Key × Value) → List (Key × Value)
  | [], _, t => t
  | (none, _, w) :: l, i, t => apply l (i + 1) (put t (.num i) (some w))
  | (some k, _, w) :: l, i, t => apply l i (put t (.str k) (some w))

/-- Only blanks. -/
def Blank (ind : Text) : Prop := ∀ c ∈ ind, c = ' '

theorem Blank.space {ind : Text} (h : Blank ind) : ∀ c ∈ ind, isSpace c = true := by
  intro c hc
  rw [h c hc]; rfl

theorem skip_line {ind : Text} (h : Blank ind) {c : Char} (hc : isSpace c = false) (s : Text) : skip ('\n' :: (ind ++ c :: s)) = c :: s := by
  rw [show skip ('\n' :: (ind ++ c :: s)) = skip (ind ++ c :: s) from rfl, skip_append h.space, skip_cons hc]

theorem readKey_name {k : Text} (hk : isName k = true) (s : Text) : readKey (k ++ " = ".toList ++ s) = some (k, ' ' :: s) := by
  have hw : ∀ c ∈ k, isWord c = true := by
    cases k with
    | nil => simp [isName] at hk
    | cons c r =>
      simp only [isName, Bool.and_eq_true, List.all_eq_true] at hk
      exact hk.1.2
  unfold readKey
  dsimp only
  have h := takeWhile_stop (p := isWord) (s := k) (rest := " = ".toList ++ s) hw fun x y h => by
    have : x = ' ' := by
      have := congrArg List.head? h
      simpa using this.symm
    rw [this]; rfl
  rw [List.append_assoc, h.1, h.2, hk]
  rfl

theorem item_none (ind v : Text) : item ind none v = '\n' :: (ind ++ [' ', ' '] ++ (v ++ [','])) := by simp [item]

theorem item_some (ind k v : Text) : item ind (some k) v = '\n' :: (ind ++ [' ', ' '] ++ (k ++ " = ".toList ++ v ++ [','])) := by simp [item]

theorem blank_more {ind : Text} (h : Blank ind) : Blank (ind ++ [' ', ' ']) := by
  intro c hc
  simp only [List.mem_append, List.mem_cons, List.not_mem_nil, or_false, or_self] at hc
  exact hc.elim (h c) id

theorem readFields_items {ind : Text} (hi : Blank ind) (rest : Text) : ∀ (items : List (Option Text × Text × Value)) (n : Nat) (i : Int)
    (t : List (Key × Value)), (∀ x ∈ items, Reads fl x.2.1 x.2.2 ∧ ∀ k, x.1 = some k → isName k = true) →
    (items.flatMap (fun x => item ind x.1 x.2.1)).length + ind.length + 2 ≤ n →
    readFields fl n (items.flatMap (fun x => item ind x.1 x.2.1) ++ '\n' :: (ind ++ '}' :: rest)) i t = some (apply items i t, rest) := by
  intro items
  induction items with
  | nil =>
    intro n i t _ hn
    cases n with
    | zero => simp at hn
    | succ n =>
      rw [readFields, List.flatMap_nil, List.nil_append, skip_line hi (by rfl)]
      simp only
      rw [if_pos trivial]
      rfl
  | cons x items ih =>
    obtain ⟨key, v, w⟩ := x
    intro n i t hx hn
    have ih' := fun n i t => ih n i t fun y hy => hx y (by simp [hy])
    obtain ⟨hr, hname⟩ := hx (key, v, w) (by simp)
    dsimp only at hr hname
    cases n with
    | zero => simp at hn
    | succ n =>
      cases key with
      | none =>
        rw [List.flatMap_cons, List.length_append, item_none] at hn
        rw [List.flatMap_cons, List.append_assoc, item_none]
        obtain ⟨c, r, e, hc1, hc2⟩ := hr.first
        simp only [List.length_cons, List.length_append, List.length_nil] at hn
        have hs := stops_comma (items.flatMap (fun x => item ind x.1 x.2.1) ++ '\n' :: (ind ++ '}' :: rest))
        have e1 : '\n' :: (ind ++ [' ', ' '] ++ (v ++ [','])) ++ (items.flatMap (fun x => item ind x.1 x.2.1) ++ '\n' :: (ind ++ '}' :: rest)) =
            '\n' :: ((ind ++ [' ', ' ']) ++ c :: (r ++ ',' :: (items.flatMap (fun x => item ind x.1 x.2.1) ++ '\n' :: (ind ++ '}' :: rest)))) := by
          rw [e]; simp
        have e2 : c :: (r ++ ',' :: (items.flatMap (fun x => item ind x.1 x.2.1) ++ '\n' :: (ind ++ '}' :: rest))) =
            v ++ ',' :: (items.flatMap (fun x => item ind x.1 x.2.1) ++ '\n' :: (ind ++ '}' :: rest)) := by rw [e]; simp
        dsimp only at e1 e2 ⊢
        rw [e1, readFields, skip_line (blank_more hi) hc1]
        simp only
        rw [if_neg hc2, e2, hr.noKey _ hs]
        simp only
        rw [hr.reads n _ hs (by omega)]
        simp only [Option.bind_eq_bind, Option.bind_some]
        rw [separator, skip_cons (by rfl)]
        simp only [Option.bind_some]
        rw [if_neg (by decide)]
        exact ih' n (i + 1) _ (by omega)
      | some k =>
        have hk := hname k rfl
        rw [List.flatMap_cons, List.length_append, item_some] at hn
        rw [List.flatMap_cons, List.append_assoc, item_some]
        simp only [List.length_cons, List.length_append, List.length_nil] at hn
        have hs := stops_comma (items.flatMap (fun x => item ind x.1 x.2.1) ++ '\n' :: (ind ++ '}' :: rest))
        obtain ⟨c, k', e⟩ : ∃ c k', k = c :: k' := by
          cases k with
          | nil => simp [isName] at hk
          | cons c k' => exact ⟨c, k', rfl⟩
        have hc : isSpace c = false ∧ c ≠ '}' := by
          have hl : isLetter c = true := by
            rw [e] at hk
            simp only [isName, Bool.and_eq_true] at hk
            exact hk.1.1
          refine ⟨?_, ?_⟩
          · by_contra hcon
            simp only [Bool.not_eq_false, isSpace, Bool.or_eq_true, decide_eq_true_eq] at hcon
            rcases hcon with ((rfl | rfl) | rfl) | rfl <;> exact absurd hl (by decide)
          · rintro rfl; exact absurd hl (by decide)
        have e1 : '\n' :: (ind ++ [' ', ' '] ++ (k ++ " = ".toList ++ v ++ [','])) ++
              (items.flatMap (fun x => item ind x.1 x.2.1) ++ '\n' :: (ind ++ '}' :: rest)) =
            '\n' :: ((ind ++ [' ', ' ']) ++ c :: (k' ++ " = ".toList ++ (v ++ ',' :: (items.flatMap (fun x => item ind x.1 x.2.1) ++
              '\n' :: (ind ++ '}' :: rest))))) := by
          rw [e]; simp
        have e2 : c :: (k' ++ " = ".toList ++ (v ++ ',' :: (items.flatMap (fun x => item ind x.1 x.2.1) ++ '\n' :: (ind ++ '}' :: rest)))) =
            k ++ " = ".toList ++ (v ++ ',' :: (items.flatMap (fun x => item ind x.1 x.2.1) ++ '\n' :: (ind ++ '}' :: rest))) := by rw [e]; rfl
        dsimp only at e1 e2 ⊢
        rw [e1, readFields, skip_line (blank_more hi) hc.1]
        simp only
        rw [if_neg hc.2, e2, readKey_name hk]
        simp only
        rw [readExp_blank, hr.reads n _ hs (by omega)]
        simp only [Option.bind_eq_bind, Option.bind_some]
        rw [separator, skip_cons (by rfl)]
        simp only [Option.bind_some]
        rw [if_neg (by decide)]
        exact ih' n i _ (by omega)

theorem apply_append (l : List (Option Text × Text × Value)) : ∀ (a : List (Option Text × Text × Value)) (i : Int) (t : List (Key × Value)),
    (∀ x ∈ a, x.1 = none) → apply (a ++ l) i t = apply l (i + a.length) (apply a i t) := by
  intro a
  induction a with
  | nil => intro i t _; simp [apply]
  | cons x a ih =>
    obtain ⟨k, u, w⟩ := x
    intro i t h
    obtain rfl : k = none := h (k, u, w) (by simp)
    rw [List.cons_append, apply, apply, ih _ _ fun y hy => h y (by simp [hy])]
    congr 1
    rw [List.length_cons]
    push_cast
    omega

theorem apply_nodup : ∀ (a : List (Option Text × Text × Value)) (i : Int) (t : List (Key × Value)), (t.map Prod.fst).Nodup →
    ((apply a i t).map Prod.fst).Nodup := by
  intro a
  induction a with
  | nil => intro i t h; exact h
  | cons x a ih =>
    obtain ⟨k, u, w⟩ := x
    intro i t h
    cases k with
    | none => exact ih _ _ (put_nodup h _ _)
    | some k => exact ih _ _ (put_nodup h _ _)

theorem apply_array_other {tx : Value → Text} {wx : Value → Value} {k : Key} : ∀ (vs : List Value) (i : Int) (t : List (Key × Value)),
    (∀ j : Int, k = .num j → j < i ∨ i + vs.length ≤ j) → get (apply (vs.map fun v => (none, tx v, wx v)) i t) k = get t k := by
  intro vs
  induction vs with
  | nil => intro i t _; rfl
  | cons v vs ih =>
    intro i t h
    rw [List.map_cons, apply, ih, get_put, if_neg]
    · rintro rfl
      have := h i rfl
      rw [List.length_cons] at this
      push_cast at this
      omega
    · intro j hj
      have := h j hj
      rw [List.length_cons] at this
      push_cast at this
      omega

theorem apply_array {tx : Value → Text} {wx : Value → Value} : ∀ (vs : List Value) (i : Int) (t : List (Key × Value)) (m : Nat) (v : Value),
    vs[m]? = some v → get (apply (vs.map fun v => (none, tx v, wx v)) i t) (.num (i + m)) = some (wx v) := by
  intro vs
  induction vs with
  | nil => intro i t m v h; simp at h
  | cons v' vs ih =>
    intro i t m v h
    rw [List.map_cons, apply]
    cases m with
    | zero =>
      rw [List.getElem?_cons_zero, Option.some.injEq] at h
      subst h
      rw [apply_array_other, get_put, if_pos (by simp)]
      intro j hj
      simp only [Lua.Key.num.injEq] at hj
      omega
    | succ m =>
      rw [List.getElem?_cons_succ] at h
      have := ih (i + 1) (put t (.num i) (some (wx v'))) m v h
      rw [show i + ((m + 1 : Nat) : Int) = i + 1 + (m : Int) by push_cast; omega]
      exact this

theorem apply_fields_other {tx : Value → Text} {wx : Value → Value} {k : Key} : ∀ (fs : List (Text × Value)) (i : Int) (t : List (Key × Value)),
    (∀ f ∈ fs, k ≠ .str f.1) → get (apply (fs.map fun f => (some f.1, tx f.2, wx f.2)) i t) k = get t k := by
  intro fs
  induction fs with
  | nil => intro i t _; rfl
  | cons f fs ih =>
    intro i t h
    rw [List.map_cons, apply, ih _ _ fun f' hf => h f' (by simp [hf]), get_put, if_neg (h f (by simp))]

theorem apply_fields {tx : Value → Text} {wx : Value → Value} : ∀ (fs : List (Text × Value)) (i : Int) (t : List (Key × Value)) (s : Text) (v : Value),
    (fs.map Prod.fst).Nodup → (s, v) ∈ fs → get (apply (fs.map fun f => (some f.1, tx f.2, wx f.2)) i t) (.str s) = some (wx v) := by
  intro fs
  induction fs with
  | nil => intro i t s v _ h; simp at h
  | cons f fs ih =>
    intro i t s v hn h
    rw [List.map_cons, List.nodup_cons] at hn
    rw [List.map_cons, apply]
    rcases List.mem_cons.1 h with rfl | h
    · rw [apply_fields_other, get_put, if_pos rfl]
      intro f' hf' hc
      simp only [Lua.Key.str.injEq] at hc
      exact hn.1 (List.mem_map.2 ⟨f', hf', hc.symm⟩)
    · exact ih _ _ _ _ hn.2 h

/-- The fields with these names. -/
def fieldsOf (es : List (Key × Value)) (ks : List Text) : List (Text × Value) := ks.filterMap fun k => (get es (.str k)).map fun v => (k, v)

theorem mem_fieldsOf {es : List (Key × Value)} {ks : List Text} {s : Text} {v : Value} :
    (s, v) ∈ fieldsOf es ks ↔ s ∈ ks ∧ get es (.str s) = some v := by
  simp only [fieldsOf, List.mem_filterMap, Option.map_eq_some_iff, Prod.mk.injEq]
  constructor
  · rintro ⟨k, hk, v', h, rfl, rfl⟩
    exact ⟨hk, h⟩
  · rintro ⟨hk, h⟩
    exact ⟨s, hk, v, h, rfl, rfl⟩

theorem fieldsOf_keys {es : List (Key × Value)} : ∀ {ks : List Text}, (∀ k ∈ ks, (get es (.str k)).isSome) → (fieldsOf es ks).map Prod.fst = ks := by
  intro ks
  induction ks with
  | nil => intro _; rfl
  | cons k ks ih =>
    intro h
    have hk := h k (by simp)
    rw [Option.isSome_iff_exists] at hk
    obtain ⟨v, hv⟩ := hk
    have := ih fun k' hk' => h k' (by simp [hk'])
    unfold fieldsOf at this ⊢
    rw [List.filterMap_cons, hv]
    simpa using this

theorem valuesOf_eq {ind : Text} {es : List (Key × Value)} {tx : Value → Text} (htx : ∀ k v, get es k = some v → text T ind v = some (tx v)) :
    ∀ {ks : List Text}, (∀ k ∈ ks, (get es (.str k)).isSome) →
      valuesOf (texts T ind es) ks = ((fieldsOf es ks).map fun f => (f.1, tx f.2)).map some := by
  intro ks
  induction ks with
  | nil => intro _; rfl
  | cons k ks ih =>
    intro h
    have hk := h k (by simp)
    rw [Option.isSome_iff_exists] at hk
    obtain ⟨v, hv⟩ := hk
    have := ih fun k' hk' => h k' (by simp [hk'])
    unfold valuesOf fieldsOf at this ⊢
    rw [List.map_cons, this, List.filterMap_cons, hv, texts_get, hv, Option.map_some, htx _ _ hv]
    rfl

theorem arrayOf_mem {V : Type} {t : List (Key × V)} : ∀ {n : Nat} {i : Int} {v : V}, v ∈ arrayOf t n i → ∃ j, get t (.num j) = some v := by
  intro n
  induction n with
  | zero => intro i v h; simp [arrayOf] at h
  | succ n ih =>
    intro i v h
    rw [arrayOf] at h
    cases hg : get t (.num i) with
    | none => rw [hg] at h; simp at h
    | some v' =>
      rw [hg] at h
      rcases List.mem_cons.1 h with rfl | h
      · exact ⟨i, hg⟩
      · exact ih h

/-- A printed table is read back with all its keys; `wx` is what the values are read back as. -/
theorem layout_reads (hT : NamesAreNoNumbers T) {ind : Text} (hi : Blank ind) {es : List (Key × Value)} (hn : (es.map Prod.fst).Nodup)
    (hk : ∀ k ∈ es.map Prod.fst, GoodKey (es.map Prod.fst) k) {tx : Value → Text} {wx : Value → Value}
    (h : ∀ k v, get es k = some v → text T ind v = some (tx v) ∧ Reads fl (tx v) (wx v)) :
    ∃ s es', layout T ind (texts T ind es) = some s ∧ Reads fl s (.table es') ∧ (es'.map Prod.fst).Nodup ∧
      ∀ k, get es' k = (get es k).map wx := by
  set ks := (strKeys es).insertionSort (· ≤ ·) with hks
  set vs := arrayOf es es.length 1 with hvs
  set fs := fieldsOf es ks with hfs
  have hmem : ∀ s, s ∈ ks ↔ .str s ∈ es.map Prod.fst := fun s => by
    rw [hks, (List.perm_insertionSort _ _).mem_iff, mem_strKeys]
  have hsome : ∀ k ∈ ks, (get es (.str k)).isSome := fun k hk' => by rw [get_isSome]; exact (hmem k).1 hk'
  have harr : all (arrayOf (texts T ind es) (texts T ind es).length 1) = some (vs.map tx) := by
    rw [arrayOf_map (texts_get ind es), texts_length, ← all_some (vs.map tx), List.map_map]
    congr 1
    refine List.map_congr_left fun v hv => ?_
    obtain ⟨j, hj⟩ := arrayOf_mem hv
    exact (h _ _ hj).1
  have hkeys : keysOf T (texts T ind es) = some (strKeys es) := by
    rw [keysOf_eq hT (keys := es.map Prod.fst) (by rw [texts_keys]; exact hk)]
    have : ∀ (a : List (Key × Option Text)) (b : List (Key × Value)), a.map Prod.fst = b.map Prod.fst → strKeys a = strKeys b := by
      intro a
      induction a with
      | nil => intro b hb; cases b with
        | nil => rfl
        | cons x b => simp at hb
      | cons x a ih =>
        intro b hb
        cases b with
        | nil => simp at hb
        | cons y b =>
          rw [List.map_cons, List.map_cons, List.cons.injEq] at hb
          have := ih b hb.2
          unfold strKeys at this ⊢
          rw [List.filterMap_cons, List.filterMap_cons, this, hb.1]
    rw [this _ _ (texts_keys ind es)]
  have hvals : all (valuesOf (texts T ind es) ks) = some (fs.map fun f => (f.1, tx f.2)) := by
    rw [valuesOf_eq (fun k v hv => (h k v hv).1) hsome, all_some]
  set items : List (Option Text × Text × Value) := (vs.map fun v => (none, tx v, wx v)) ++ fs.map fun f => (some f.1, tx f.2, wx f.2) with hitems
  have hreads : ∀ x ∈ items, Reads fl x.2.1 x.2.2 ∧ ∀ k, x.1 = some k → isName k = true := by
    intro x hx
    rw [hitems, List.mem_append, List.mem_map, List.mem_map] at hx
    rcases hx with ⟨v, hv, rfl⟩ | ⟨f, hf, rfl⟩
    · obtain ⟨j, hj⟩ := arrayOf_mem hv
      exact ⟨(h _ _ hj).2, fun k hk => by cases hk⟩
    · obtain ⟨s, v⟩ := f
      rw [hfs, mem_fieldsOf] at hf
      refine ⟨(h _ _ hf.2).2, fun k hk' => ?_⟩
      rw [← Option.some.inj hk']
      exact hk _ ((hmem s).1 hf.1)
  have hflat : (vs.map tx).flatMap (item ind none) ++ ((fs.map fun f => (f.1, tx f.2)).flatMap fun f => item ind (some f.1) f.2) =
      items.flatMap fun x => item ind x.1 x.2.1 := by
    rw [hitems, List.flatMap_append, List.flatMap_map, List.flatMap_map, List.flatMap_map, List.flatMap_map]
  have hget : ∀ k, get (apply items 1 []) k = (get es k).map wx := by
    intro k
    have hfn : (fs.map Prod.fst).Nodup := by
      rw [hfs, fieldsOf_keys hsome, hks, (List.perm_insertionSort _ _).nodup_iff]
      exact strKeys_nodup hn
    rw [hitems, apply_append _ _ _ _ (by simp)]
    cases k with
    | num j =>
      rw [apply_fields_other _ _ _ (by simp)]
      rcases lt_or_ge j 1 with hj | hj
      · rw [apply_array_other _ _ _ (fun a ha => by simp only [Lua.Key.num.injEq] at ha; omega), get_nil]
        cases hg : get es (.num j) with
        | none => rfl
        | some v =>
          have := hk (.num j) (by rw [← get_isSome, hg]; rfl)
          exact absurd this.1 (by omega)
      · obtain ⟨m, rfl⟩ : ∃ m : Nat, j = 1 + (m : Int) := ⟨(j - 1).toNat, by omega⟩
        have hspec := array_spec hk m
        rw [← hvs] at hspec
        rw [← hspec]
        cases hv : vs[m]? with
        | none =>
          rw [List.getElem?_eq_none_iff] at hv
          rw [apply_array_other _ _ _ (fun a ha => by simp only [Lua.Key.num.injEq] at ha; omega), get_nil]
          rfl
        | some v => rw [apply_array vs 1 [] m v hv]; rfl
    | str s =>
      cases hg : get es (.str s) with
      | none =>
        rw [apply_fields_other, apply_array_other _ _ _ (by simp), get_nil]
        · rfl
        · rintro ⟨s', v⟩ hf hc
          simp only [Lua.Key.str.injEq] at hc
          subst hc
          rw [hfs, mem_fieldsOf, hg] at hf
          cases hf.2
      | some v =>
        rw [apply_fields _ _ _ s v hfn]
        · rfl
        · rw [hfs, mem_fieldsOf]
          exact ⟨(hmem s).2 (by rw [← get_isSome, hg]; rfl), hg⟩
    | other n =>
      rw [apply_fields_other _ _ _ (by simp), apply_array_other _ _ _ (by simp), get_nil]
      cases hg : get es (.other n) with
      | none => rfl
      | some v => exact absurd (hk (.other n) (by rw [← get_isSome, hg]; rfl)) (by simp [GoodKey])
  by_cases hempty : (vs.map tx).isEmpty && (fs.map fun f => (f.1, tx f.2)).isEmpty
  · refine ⟨['{', '}'], apply items 1 [], ?_, ?_, apply_nodup _ _ _ (by simp), hget⟩
    · simp only [layout, harr, hkeys, Option.bind_eq_bind, Option.bind_some]
      rw [← hks, hvals, Option.bind_some, if_pos hempty]
    · simp only [List.isEmpty_iff, List.map_eq_nil_iff, Bool.and_eq_true] at hempty
      have hnil : apply items 1 [] = [] := by rw [hitems, hempty.1, hempty.2]; rfl
      rw [hnil]
      refine ⟨⟨'{', _, rfl, rfl, by decide⟩, fun rest _ => noKey_first rfl, fun n rest _ hn => ?_⟩
      cases n with
      | zero => simp at hn
      | succ n =>
        cases n with
        | zero => simp at hn
        | succ n =>
          rw [readExp, List.cons_append, skip_cons (by rfl)]
          simp only
          rw [if_pos trivial, readFields, List.cons_append, skip_cons (by rfl)]
          simp only
          rw [if_pos trivial]
          rfl
  · refine ⟨'{' :: ((items.flatMap fun x => item ind x.1 x.2.1) ++ '\n' :: ind ++ ['}']), apply items 1 [], ?_, ?_, apply_nodup _ _ _ (by simp), hget⟩
    · simp only [layout, harr, hkeys, Option.bind_eq_bind, Option.bind_some]
      rw [← hks, hvals, Option.bind_some, if_neg hempty, ← hflat]
    · refine ⟨⟨'{', _, rfl, rfl, by decide⟩, fun rest _ => noKey_first rfl, fun n rest _ hn => ?_⟩
      cases n with
      | zero => simp at hn
      | succ n =>
        rw [readExp, List.cons_append, skip_cons (by rfl)]
        simp only
        have e : (items.flatMap fun x => item ind x.1 x.2.1) ++ '\n' :: ind ++ ['}'] ++ rest =
            (items.flatMap fun x => item ind x.1 x.2.1) ++ '\n' :: (ind ++ '}' :: rest) := by simp
        rw [if_pos trivial, e, readFields_items hi rest items n 1 [] hreads (by
          simp only [List.length_cons, List.length_append, List.length_nil] at hn
          omega)]
        rfl

theorem table_reads (hT : NamesAreNoNumbers T) {ind : Text} (hi : Blank ind) {es : List (Key × Value)} (hn : (es.map Prod.fst).Nodup)
    (hk : ∀ k ∈ es.map Prod.fst, GoodKey (es.map Prod.fst) k)
    (h : ∀ e ∈ es, ∃ s w, text T ind e.2 = some s ∧ Reads fl s w ∧ Same (reread fl) e.2 w ∧ Good w) :
    ∃ s es', layout T ind (texts T ind es) = some s ∧ Reads fl s (.table es') ∧ Same (reread fl) (.table es) (.table es') ∧ Good (.table es') := by
  have ih' : ∀ v, (∃ k, get es k = some v) → ∃ s w, text T ind v = some s ∧ Reads fl s w ∧ Same (reread fl) v w ∧ Good w := by
    rintro v ⟨k, hg⟩
    exact h (k, v) ((get_eq hn).1 hg)
  choose! tx wx hx using ih'
  obtain ⟨s, es', h1, h2, h3, h4⟩ := layout_reads (fl := fl) hT hi hn hk (tx := tx) (wx := wx)
    fun k v hg => ⟨(hx v ⟨k, hg⟩).1, (hx v ⟨k, hg⟩).2.1⟩
  have hkeys : ∀ k, k ∈ es.map Prod.fst ↔ k ∈ es'.map Prod.fst := fun k => by
    rw [← get_isSome, ← get_isSome, h4, Option.isSome_map]
  refine ⟨s, es', h1, h2, .table hkeys ?_, .table h3 ?_ ?_⟩
  · intro k v v' hg hg'
    rw [h4, hg, Option.map_some, Option.some.injEq] at hg'
    subst hg'
    exact (hx v ⟨k, hg⟩).2.2.1
  · intro k hk'
    have := hk k ((hkeys k).2 hk')
    cases k with
    | str s => exact this
    | num i => exact ⟨this.1, fun j h1 h2 => (hkeys _).1 (this.2 j h1 h2)⟩
    | other n => exact this
  · rintro ⟨k, w⟩ he
    rw [← get_eq h3, h4, Option.map_eq_some_iff] at he
    obtain ⟨v, hg, rfl⟩ := he
    exact (hx v ⟨k, hg⟩).2.2.2

theorem text_reads (hT : NamesAreNoNumbers T) (hfl : ∀ q, 0 ≤ q → 0 ≤ fl q) {v : Value} (h : Good v) : ∀ {ind : Text}, Blank ind →
    ∃ s w, text T ind v = some s ∧ Reads fl s w ∧ Same (reread fl) v w ∧ Good w := by
  induction h with
  | bool b => exact fun _ => ⟨_, _, by rw [text], reads_bool b, .bool b, .bool b⟩
  | str h => exact fun _ => ⟨_, _, by rw [text], reads_string h, .str _, .str h⟩
  | fin neg h =>
    refine fun _ => ⟨_, _, by rw [text]; rfl, reads_sign (reads_fixed _) neg, .fin neg _, .fin neg (hfl _ (by positivity))⟩
  | inf neg => exact fun _ => ⟨_, _, by rw [text]; rfl, reads_sign reads_huge neg, .inf neg, .inf neg⟩
  | @table es hn hk hv ih =>
    intro ind hi
    obtain ⟨s, es', h1, h2⟩ := table_reads (fl := fl) hT (blank_more hi) hn hk fun e he => ih e he (blank_more hi)
    exact ⟨s, .table es', by rw [text, h1], h2⟩

theorem readReturn_text {s : Text} {es : List (Key × Value)} (h : Reads fl s (.table es)) :
    readReturn fl ("return ".toList ++ s ++ ['\n']) = some es := by
  have e : "return ".toList ++ s ++ ['\n'] = "return".toList ++ (' ' :: (s ++ ['\n'])) := by simp
  have hw := takeWhile_stop (p := isWord) (s := "return".toList) (rest := ' ' :: (s ++ ['\n'])) (by decide) fun x y h => by
    rw [List.cons.injEq] at h
    rw [← h.1]; rfl
  have hs : Stops ['\n'] := by
    intro c r h
    rw [List.cons.injEq] at h
    rw [← h.1]
    decide
  unfold readReturn readTable
  rw [e, hw.1, hw.2, if_pos rfl, readExp_blank, h.reads _ _ hs (by simp; omega)]
  rfl

/-- **C108.** A configuration that consists of booleans, strings, numbers other than NaN and tables whose keys are names or
the numbers from 1 on is printed, and reading `return` and the printed text gives the same configuration, except that every
number is the double nearest to the number printed with six digits after the point. -/
theorem print_read (hT : NamesAreNoNumbers T) (hfl : ∀ q, 0 ≤ q → 0 ≤ fl q) {es : List (Key × Value)} (h : Good (.table es)) :
    ∃ s es', toText T es = some s ∧ readReturn fl ("return ".toList ++ s ++ ['\n']) = some es' ∧
      Same (reread fl) (.table es) (.table es') ∧ Good (.table es') := by
  have hb : Blank [] := by intro c hc; simp at hc
  cases h with
  | table hn hk hv =>
    obtain ⟨s, es', h1, h2, h3⟩ := table_reads (fl := fl) hT hb hn hk fun e he => text_reads hT hfl (hv e he) hb
    exact ⟨s, es', h1, readReturn_text h2, h3⟩

/-! ### The text depends on the contents only -/

/-- All numbers in a value. -/
inductive Numbers (P : ℚ → Prop) : Value → Prop where
  | bool (b) : Numbers P (.bool b)
  | str (s) : Numbers P (.str s)
  | fin (neg) {q : ℚ} (h : P q) : Numbers P (.num neg (.fin q))
  | inf (neg) : Numbers P (.num neg .inf)
  | table {es : List (Key × Value)} (h : ∀ e ∈ es, Numbers P e.2) : Numbers P (.table es)

theorem keys_perm {V W : Type} {t : List (Key × V)} {t' : List (Key × W)} (hn : (t.map Prod.fst).Nodup) (hn' : (t'.map Prod.fst).Nodup)
    (h : ∀ k, k ∈ t.map Prod.fst ↔ k ∈ t'.map Prod.fst) : (t.map Prod.fst).Perm (t'.map Prod.fst) :=
  (List.perm_ext_iff_of_nodup hn hn').2 h

theorem sorted_eq {a b : List Text} (h : a.Perm b) : a.insertionSort (· ≤ ·) = b.insertionSort (· ≤ ·) := by
  have tot : Std.Total (α := Text) (· ≤ ·) := ⟨fun a b => List.le_total a b⟩
  have tr : IsTrans Text (· ≤ ·) := ⟨fun a b c h h' => List.le_trans h h'⟩
  refine List.Perm.eq_of_pairwise (le := (· ≤ ·)) (fun x y _ _ h1 h2 => List.le_antisymm h1 h2) ?_ ?_ ?_
  · exact List.pairwise_insertionSort _ _
  · exact List.pairwise_insertionSort _ _
  · exact (List.perm_insertionSort _ _).trans (h.trans (List.perm_insertionSort _ _).symm)

theorem layout_congr (hT : NamesAreNoNumbers T) {ind : Text} {t t' : List (Key × Option Text)} (hn : (t.map Prod.fst).Nodup)
    (hn' : (t'.map Prod.fst).Nodup) (hk : ∀ k ∈ t.map Prod.fst, GoodKey (t.map Prod.fst) k) (h : ∀ k, get t' k = get t k) :
    layout T ind t' = layout T ind t := by
  have hkeys : ∀ k, k ∈ t.map Prod.fst ↔ k ∈ t'.map Prod.fst := fun k => by rw [← get_isSome, ← get_isSome, h]
  have hlen : t'.length = t.length := by
    have := (keys_perm hn hn' hkeys).length_eq
    simpa using this.symm
  have harr : arrayOf t' t'.length 1 = arrayOf t t.length 1 := by
    rw [hlen, arrayOf_map (f := id) (t := t) (by simpa using h), List.map_id]
  have hk1 := keysOf_eq hT hk
  have hk2 := keysOf_eq hT (t := t') (keys := t.map Prod.fst) fun k hk' => hk k ((hkeys k).2 hk')
  have hperm : (strKeys t').Perm (strKeys t) :=
    (List.perm_ext_iff_of_nodup (strKeys_nodup hn') (strKeys_nodup hn)).2 fun s => by rw [mem_strKeys, mem_strKeys]; exact (hkeys _).symm
  have hvals : ∀ ks, valuesOf t' ks = valuesOf t ks := fun ks => by simp only [valuesOf, h]
  simp only [layout, harr, hk1, hk2, Option.bind_eq_bind, Option.bind_some, sorted_eq hperm, hvals]

theorem texts_congr {ind : Text} {es es' : List (Key × Value)} (keys : ∀ k, k ∈ es.map Prod.fst ↔ k ∈ es'.map Prod.fst)
    (h : ∀ k v v', get es k = some v → get es' k = some v' → text T ind v' = text T ind v) (k : Key) :
    get (texts T ind es') k = get (texts T ind es) k := by
  rw [texts_get, texts_get]
  have := keys k
  rw [← get_isSome, ← get_isSome] at this
  cases hg : get es k with
  | none =>
    cases hg' : get es' k with
    | none => rfl
    | some v' => rw [hg, hg'] at this; simp at this
  | some v =>
    cases hg' : get es' k with
    | none => rw [hg, hg'] at this; simp at this
    | some v' => rw [Option.map_some, Option.map_some, h k v v' hg hg']

theorem same_text (hT : NamesAreNoNumbers T) {r : ℚ → ℚ} {v w : Value} (h : Same r v w) : Good v → Good w →
    Numbers (fun q => millionths (r q) = millionths q) v → ∀ ind, text T ind w = text T ind v := by
  induction h with
  | bool b => exact fun _ _ _ _ => rfl
  | str s => exact fun _ _ _ _ => rfl
  | fin neg q =>
    intro _ _ hnum ind
    cases hnum with
    | fin _ h => simp only [text, number, fixed, h]
  | inf neg => exact fun _ _ _ _ => rfl
  | @table es es' keys vals ih =>
    intro hg hg' hnum ind
    cases hg with
    | table hn hk hv =>
      cases hg' with
      | table hn' hk' hv' =>
        cases hnum with
        | table hnum =>
          rw [text, text]
          refine layout_congr hT (by rw [texts_keys]; exact hn) (by rw [texts_keys]; exact hn') (by rw [texts_keys]; exact hk) ?_
          refine texts_congr keys fun k v v' h1 h2 => ?_
          exact ih k v v' h1 h2 (hv _ ((get_eq hn).1 h1)) (hv' _ ((get_eq hn').1 h2)) (hnum _ ((get_eq hn).1 h1)) _

theorem same_toText (hT : NamesAreNoNumbers T) {r : ℚ → ℚ} {es es' : List (Key × Value)} (h : Same r (.table es) (.table es'))
    (hg : Good (.table es)) (hg' : Good (.table es')) (hnum : Numbers (fun q => millionths (r q) = millionths q) (.table es)) :
    toText T es' = toText T es := by
  cases h with
  | table keys vals =>
    cases hg with
    | table hn hk hv =>
      cases hg' with
      | table hn' hk' hv' =>
        cases hnum with
        | table hnum =>
          refine layout_congr hT (by rw [texts_keys]; exact hn) (by rw [texts_keys]; exact hn') (by rw [texts_keys]; exact hk) ?_
          refine texts_congr keys fun k v v' h1 h2 => ?_
          exact same_text hT (vals k v v' h1 h2) (hv _ ((get_eq hn).1 h1)) (hv' _ ((get_eq hn').1 h2)) (hnum _ ((get_eq hn).1 h1)) _

/-- **C108.** The printed text does not depend on the order in which Lua visits the entries of the tables. -/
theorem print_order (hT : NamesAreNoNumbers T) {es es' : List (Key × Value)} (h : Same id (.table es) (.table es')) (hg : Good (.table es))
    (hg' : Good (.table es')) : toText T es' = toText T es := by
  refine same_toText hT h hg hg' ?_
  have : ∀ v, Good v → Numbers (fun q => millionths (id q) = millionths q) v := by
    intro v hv
    induction hv with
    | bool b => exact .bool b
    | str _ => exact .str _
    | fin neg _ => exact .fin neg rfl
    | inf neg => exact .inf neg
    | table _ _ _ ih => exact .table ih
  exact this _ hg

/-! ### Numbers -/

open Fp in
theorem double_nonneg {q : ℚ} (h : 0 ≤ q) : 0 ≤ Fp.double.rnd q := rndWith_nonneg isInt_roundEven h

theorem roundEven_nonneg {q : ℚ} (h : 0 ≤ q) : 0 ≤ Ticks.roundEven q := Ticks.le_roundEven (n := 0) (by exact_mod_cast h)

theorem millionths_cast {q : ℚ} (h : 0 ≤ q) : ((millionths q : Nat) : ℚ) = (Ticks.roundEven (q * 1000000) : ℚ) := by
  have := roundEven_nonneg (q := q * 1000000) (by positivity)
  unfold millionths
  have e : (((Ticks.roundEven (q * 1000000)).toNat : Int)) = Ticks.roundEven (q * 1000000) := Int.toNat_of_nonneg this
  exact_mod_cast congrArg (fun i : Int => (i : ℚ)) e

theorem millionths_near {q : ℚ} (h : 0 ≤ q) : |(millionths q : ℚ) / 10 ^ 6 - q| ≤ 1 / 2 / 10 ^ 6 := by
  have := Ticks.roundEven_error (q * 1000000)
  rw [← millionths_cast h, abs_le] at this
  rw [abs_le]
  constructor <;> linarith [this.1, this.2]

/-- An integer that is as near as the nearest one is the nearest one, unless both are at distance one half. -/
theorem roundEven_stable {x y : ℚ} (h : |(Ticks.roundEven x : ℚ) - y| ≤ |(Ticks.roundEven x : ℚ) - x|) : Ticks.roundEven y = Ticks.roundEven x := by
  have h1 := Ticks.roundEven_error x
  rcases lt_or_eq_of_le h1 with hlt | heq
  · exact Ticks.roundEven_eq (lt_of_le_of_lt h hlt)
  · have heven : Ticks.roundEven x % 2 = 0 := by
      have f1 := Int.floor_le x
      have f2 := Int.lt_floor_add_one x
      unfold Ticks.roundEven at heq ⊢
      split_ifs at heq ⊢ with a b c
      · rw [abs_of_nonpos (by linarith)] at heq; linarith
      · push_cast at heq; rw [abs_of_nonneg (by linarith)] at heq; linarith
      · exact c
      · omega
    generalize Ticks.roundEven x = n at *
    rw [heq, abs_le] at h
    have f1 := Int.floor_le y
    have f2 := Int.lt_floor_add_one y
    have c1 : n - 1 ≤ ⌊y⌋ := Int.le_floor.2 (by push_cast; linarith [h.2])
    have c2 : ⌊y⌋ ≤ n := by
      have : ((⌊y⌋ : Int) : ℚ) < ((n + 1 : Int) : ℚ) := by push_cast; linarith [h.1]
      have : ⌊y⌋ < n + 1 := by exact_mod_cast this
      omega
    unfold Ticks.roundEven
    rcases (show ⌊y⌋ = n ∨ ⌊y⌋ = n - 1 by omega) with e | e
    · rw [e] at f1 f2 ⊢
      split_ifs with a b
      · rfl
      · linarith [h.1]
      · rfl
    · rw [e] at f1 f2 ⊢
      push_cast at f1 f2 ⊢
      split_ifs with a b c
      · linarith [h.2]
      · omega
      · omega
      · omega

open Fp in
/-- Printing the double that is read back gives the same digits. -/
theorem millionths_reread {q : ℚ} (h : 0 ≤ q) (hr : double.Repr q) : millionths (reread double.rnd q) = millionths q := by
  have hn := rnd_nearest (f := double) (by decide) ((millionths q : ℚ) / 10 ^ 6) hr
  have h0 : 0 ≤ reread double.rnd q := double_nonneg (by positivity)
  have : Ticks.roundEven (reread double.rnd q * 1000000) = Ticks.roundEven (q * 1000000) := by
    apply roundEven_stable
    rw [← millionths_cast h]
    have e : ∀ y : ℚ, |(millionths q : ℚ) - y * 1000000| = |y - (millionths q : ℚ) / 10 ^ 6| * 1000000 := by
      intro y
      rw [abs_sub_comm, show y * 1000000 - (millionths q : ℚ) = (y - (millionths q : ℚ) / 10 ^ 6) * 1000000 by ring, abs_mul,
        abs_of_pos (a := (1000000 : ℚ)) (by norm_num)]
    rw [e, e]
    exact mul_le_mul_of_nonneg_right hn (by norm_num)
  unfold millionths
  rw [this]

open Fp in
/-- **C108.** A number that is read back differs by at most 10⁻⁶. -/
theorem reread_error {q : ℚ} (h : 0 ≤ q) (hr : double.Repr q) : |reread double.rnd q - q| ≤ 1 / 10 ^ 6 := by
  have hn := rnd_nearest (f := double) (by decide) ((millionths q : ℚ) / 10 ^ 6) hr
  have hm := millionths_near h
  rw [abs_sub_comm q] at hn
  unfold reread
  have e : double.rnd ((millionths q : ℚ) / 10 ^ 6) - q =
      (double.rnd ((millionths q : ℚ) / 10 ^ 6) - (millionths q : ℚ) / 10 ^ 6) + ((millionths q : ℚ) / 10 ^ 6 - q) := by ring
  rw [e]
  refine le_trans (abs_add_le _ _) ?_
  linarith

open Fp in
/-- **C108.** A number below 2³² that is written with at most six digits after the point is read back unchanged. -/
theorem reread_exact {j : Nat} (h : (j : ℚ) / 10 ^ 6 < 2 ^ 32) : reread double.rnd (double.rnd ((j : ℚ) / 10 ^ 6)) = double.rnd ((j : ℚ) / 10 ^ 6) := by
  have hx : 0 ≤ (j : ℚ) / 10 ^ 6 := by positivity
  have herr : |double.rnd ((j : ℚ) / 10 ^ 6) - (j : ℚ) / 10 ^ 6| ≤ 48 / 10 ^ 8 := by
    by_cases h0 : (j : ℚ) / 10 ^ 6 = 0
    · rw [h0, show double.rnd 0 = 0 from rndWith_zero isInt_roundEven]
      norm_num
    · have a := FloatCells.nearest_error double ((j : ℚ) / 10 ^ 6)
      have b := ulp_le (f := double) h0
      rw [show double.prec = 53 from rfl, show double.emin = -1022 from rfl, abs_of_nonneg hx] at b
      have c : (2 : ℚ) ^ ((-1022 : Int) - ((53 : Nat) - 1 : Int)) ≤ 1 / 10 ^ 12 := by
        have : (2 : ℚ) ^ ((-1022 : Int) - ((53 : Nat) - 1 : Int)) ≤ 2 ^ (-40 : Int) := zpow_le_zpow_right₀ (by norm_num) (by norm_num)
        refine le_trans this ?_
        norm_num [zpow_neg]
      have d : (2 : ℚ) ^ (-((53 : Nat) - 1 : Int)) = 1 / 2 ^ 52 := by norm_num [zpow_neg]
      rw [d] at b
      have e : (1 : ℚ) / 2 ^ 52 * ((j : ℚ) / 10 ^ 6) ≤ 1 / 2 ^ 52 * 2 ^ 32 := mul_le_mul_of_nonneg_left h.le (by norm_num)
      refine le_trans a ?_
      have : (1 : ℚ) / 2 ^ 52 * 2 ^ 32 / 2 + 1 / 10 ^ 12 / 2 ≤ 48 / 10 ^ 8 := by norm_num
      linarith
  have hm : millionths (double.rnd ((j : ℚ) / 10 ^ 6)) = j := by
    have : Ticks.roundEven (double.rnd ((j : ℚ) / 10 ^ 6) * 1000000) = (j : Int) := by
      apply Ticks.roundEven_eq
      rw [abs_le] at herr
      rw [abs_lt]
      push_cast
      constructor <;> linarith [herr.1, herr.2]
    unfold millionths
    rw [this]
    rfl
  unfold reread
  rw [hm]

/-- **C108.** Printing what was read back gives the same text again, so a configuration that was printed once can be printed
and read any number of times without a further change. -/
theorem print_stable (hT : NamesAreNoNumbers T) {es : List (Key × Value)} (h : Good (.table es)) (hd : Numbers Fp.double.Repr (.table es)) :
    ∃ s es', toText T es = some s ∧ readReturn Fp.double.rnd ("return ".toList ++ s ++ ['\n']) = some es' ∧ toText T es' = some s := by
  obtain ⟨s, es', h1, h2, h3, h4⟩ := print_read hT (fun q hq => double_nonneg hq) h
  refine ⟨s, es', h1, h2, ?_⟩
  rw [same_toText hT h3 h h4, h1]
  have : ∀ v, Good v → Numbers Fp.double.Repr v → Numbers (fun q => millionths (reread Fp.double.rnd q) = millionths q) v := by
    intro v hv
    induction hv with
    | bool b => exact fun _ => .bool b
    | str _ => exact fun _ => .str _
    | fin neg hq =>
      intro hd
      cases hd with
      | fin _ hr => exact .fin neg (millionths_reread hq hr)
    | inf neg => exact fun _ => .inf neg
    | table _ _ _ ih =>
      intro hd
      cases hd with
      | table hd => exact .table fun e he => ih e he (hd e he)
  exact this _ h hd

theorem same_id {r : ℚ → ℚ} {v w : Value} (h : Same r v w) : Good v → Numbers (fun q => r q = q) v → Same id v w := by
  induction h with
  | bool b => exact fun _ _ => .bool b
  | str s => exact fun _ _ => .str s
  | fin neg q =>
    intro _ hn
    cases hn with
    | fin _ h => rw [h]; exact .fin neg q
  | inf neg => exact fun _ _ => .inf neg
  | table keys vals ih =>
    intro hg hn
    cases hg with
    | table nd hk hv =>
      cases hn with
      | table hn =>
        exact .table keys fun k v v' h1 h2 => ih k v v' h1 h2 (hv _ ((get_eq nd).1 h1)) (hn _ ((get_eq nd).1 h1))

/-- A number below 2³² written with at most six digits after the point. -/
def SixDigits (q : ℚ) : Prop := ∃ j : Nat, (j : ℚ) / 10 ^ 6 < 2 ^ 32 ∧ q = Fp.double.rnd ((j : ℚ) / 10 ^ 6)

/-- **C108.** If all numbers of a configuration are written with at most six digits after the point and below 2³², printing and
reading gives exactly the same configuration. -/
theorem print_read_exact (hT : NamesAreNoNumbers T) {es : List (Key × Value)} (h : Good (.table es)) (hd : Numbers SixDigits (.table es)) :
    ∃ s es', toText T es = some s ∧ readReturn Fp.double.rnd ("return ".toList ++ s ++ ['\n']) = some es' ∧
      Same id (.table es) (.table es') := by
  obtain ⟨s, es', h1, h2, h3, h4⟩ := print_read hT (fun q hq => double_nonneg hq) h
  refine ⟨s, es', h1, h2, same_id h3 h ?_⟩
  have : ∀ v, Numbers SixDigits v → Numbers (fun q => reread Fp.double.rnd q = q) v := by
    intro v hv
    induction hv with
    | bool b => exact .bool b
    | str s => exact .str s
    | fin neg hq => obtain ⟨j, hj, rfl⟩ := hq; exact .fin neg (reread_exact hj)
    | inf neg => exact .inf neg
    | table _ ih => exact .table ih
  exact this _ hd

/-- **C108.** Two configurations with the same text have the same keys and the same values up to the digits of the numbers that
are not printed. -/
theorem print_injective (hT : NamesAreNoNumbers T) {es es' : List (Key × Value)} (h : Good (.table es)) (h' : Good (.table es'))
    (e : toText T es = toText T es') :
    ∃ w, Same (fun q => (millionths q : ℚ) / 10 ^ 6) (.table es) w ∧ Same (fun q => (millionths q : ℚ) / 10 ^ 6) (.table es') w := by
  obtain ⟨s, w, h1, h2, h3, -⟩ := print_read (fl := id) hT (fun q hq => hq) h
  obtain ⟨s', w', h1', h2', h3', -⟩ := print_read (fl := id) hT (fun q hq => hq) h'
  obtain rfl : s = s' := by rw [h1, h1'] at e; exact Option.some.inj e
  obtain rfl : w = w' := by rw [h2] at h2'; exact Option.some.inj h2'
  exact ⟨_, h3, h3'⟩

/-! ### What is lost -/

/-- **C108, the wish is false.** A small number is printed as zero. -/
theorem small_number_lost {q : ℚ} (h0 : 0 ≤ q) (h : q < 5 / 10 ^ 7) : reread Fp.double.rnd q = 0 := by
  have : Ticks.roundEven (q * 1000000) = 0 := by
    apply Ticks.roundEven_eq
    rw [abs_lt]
    push_cast
    constructor <;> linarith
  unfold reread millionths
  rw [this]
  have : (((0 : Int).toNat : ℚ) / 10 ^ 6) = 0 := by norm_num
  rw [this]
  exact Fp.rndWith_zero Fp.isInt_roundEven

/-- The double `math.rad(1.)`, a value of the configurations that come with the program. -/
def oneDegree : ℚ := 5030569068109113 / 2 ^ 58

open Fp in
/-- **C108, the wish is false.** One degree in radians is read back as another number. -/
theorem degree_changes : double.Repr oneDegree ∧ reread double.rnd oneDegree < oneDegree := by
  refine ⟨⟨5030569068109113, -58, by decide, by decide, ?_⟩, ?_⟩
  · unfold oneDegree; norm_num [zpow_neg]
  · have h0 : 0 ≤ oneDegree := by unfold oneDegree; norm_num
    have hm : millionths oneDegree = 17453 := by
      have : Ticks.roundEven (oneDegree * 1000000) = 17453 := by
        apply Ticks.roundEven_eq
        unfold oneDegree
        rw [abs_lt]
        constructor <;> norm_num
      unfold millionths
      rw [this]
      rfl
    have a := FloatCells.nearest_error double ((17453 : ℚ) / 10 ^ 6)
    have b := ulp_le (f := double) (x := (17453 : ℚ) / 10 ^ 6) (by norm_num)
    have c : (2 : ℚ) ^ ((-1022 : Int) - ((53 : Nat) - 1 : Int)) ≤ 1 / 10 ^ 12 := by
      have : (2 : ℚ) ^ ((-1022 : Int) - ((53 : Nat) - 1 : Int)) ≤ 2 ^ (-40 : Int) := zpow_le_zpow_right₀ (by norm_num) (by norm_num)
      refine le_trans this ?_
      norm_num [zpow_neg]
    have d : (2 : ℚ) ^ (-((53 : Nat) - 1 : Int)) = 1 / 2 ^ 52 := by norm_num [zpow_neg]
    rw [show double.prec = 53 from rfl, show double.emin = -1022 from rfl, abs_of_nonneg (by norm_num), d] at b
    have b' : double.ulp ((17453 : ℚ) / 10 ^ 6) ≤ 1 / 10 ^ 9 := by
      refine le_trans (le_trans b (add_le_add_right c _)) ?_
      norm_num
    unfold reread
    rw [hm]
    rw [abs_le] at a
    have a2 := a.2
    push_cast at a2 ⊢
    refine lt_of_le_of_lt (b := (17453 : ℚ) / 10 ^ 6 + 1 / 10 ^ 9) (by linarith) ?_
    unfold oneDegree
    norm_num

/-- **C108, the wish is false.** A key that is not a name is printed, but the text cannot be read. -/
theorem key_not_a_name (fl : ℚ → ℚ) (hT : T "a b".toList = none) :
    ∃ s, toText T [(.str "a b".toList, .bool true)] = some s ∧ readReturn fl ("return ".toList ++ s ++ ['\n']) = none := by
  refine ⟨"{\n  a b = true,\n}".toList, ?_, rfl⟩
  simp only [toText, texts, text, layout, keysOf, hT]
  rfl

/-- **C108, the wish is false.** The same for a reserved word. -/
theorem key_reserved (fl : ℚ → ℚ) (hT : T "end".toList = none) :
    ∃ s, toText T [(.str "end".toList, .bool true)] = some s ∧ readReturn fl ("return ".toList ++ s ++ ['\n']) = none := by
  refine ⟨"{\n  end = true,\n}".toList, ?_, rfl⟩
  simp only [toText, texts, text, layout, keysOf, hT]
  rfl

/-- **C108, the wish is false.** A parameter that is NaN is gone after printing and reading, and with a sign the text cannot be
read. -/
theorem nan_lost (fl : ℚ → ℚ) (hT : T "x".toList = none) :
    (∃ s, toText T [(.str "x".toList, .num false .nan)] = some s ∧ readReturn fl ("return ".toList ++ s ++ ['\n']) = some []) ∧
    ∃ s, toText T [(.str "x".toList, .num true .nan)] = some s ∧ readReturn fl ("return ".toList ++ s ++ ['\n']) = none := by
  refine ⟨⟨"{\n  x = nan,\n}".toList, ?_, rfl⟩, "{\n  x = -nan,\n}".toList, ?_, rfl⟩ <;>
  · simp only [toText, texts, text, layout, keysOf, hT]
    rfl

/-- **C108, the wish is false.** An entry of an array after a gap, and one whose key is a string like `"1"`, is not printed. -/
theorem entries_not_printed (h1 : T "1".toList = some 1) (v : Value) (hv : (text T [] v).isSome) :
    toText T [(.num 2, v)] = some ['{', '}'] ∧ toText T [(.str "1".toList, v)] = some ['{', '}'] := by
  obtain ⟨s, hs⟩ := Option.isSome_iff_exists.1 hv
  constructor
  · simp only [toText, texts, hs, layout, keysOf]
    rfl
  · simp only [toText, texts, hs, layout, keysOf, h1]
    rfl

/-- **C108.** A function or another value without a text stops the program. -/
theorem no_text (n : Nat) (k : Text) (hT : T k = none) : toText T [(.str k, .other n)] = none := by
  simp only [toText, texts, text, layout, keysOf, hT]
  simp [arrayOf, all, valuesOf, get]

/-! ### Examples -/

/-- No string is a number, in the example. -/
def noNumbers : Lua.ToNumber Text := fun _ => none

/-- A configuration with nested tables, an array, a string with characters that must be quoted, and numbers. -/
def sample : List (Key × Value) :=
  [(.str "map_frame".toList, .str "a \"map\"\n".toList), (.str "b".toList, .table [(.num 2, .bool false), (.num 1, .num true (.fin (1 / 4)))]),
   (.str "a".toList, .num false .inf), (.str "empty".toList, .table [])]

theorem sample_good : Good (.table sample) := by
  have dense : ∀ {keys : List Key} {i : Int}, 1 ≤ i → i ≤ 2 → (.num 1 ∈ keys) → (.num 2 ∈ keys) → GoodKey keys (.num i) := by
    intro keys i h1 h2 k1 k2
    refine ⟨h1, fun j j1 j2 => ?_⟩
    rcases (show j = 1 ∨ j = 2 by omega) with rfl | rfl
    · exact k1
    · exact k2
  refine .table (by decide) ?_ ?_
  · intro k hk
    simp only [sample, List.map_cons, List.map_nil, List.mem_cons, List.not_mem_nil, or_false] at hk
    rcases hk with rfl | rfl | rfl | rfl <;> · show isName _ = true; decide
  · intro e he
    simp only [sample, List.mem_cons, List.not_mem_nil, or_false] at he
    rcases he with rfl | rfl | rfl | rfl
    · exact .str (by decide)
    · refine .table (by decide) ?_ ?_
      · intro k hk
        simp only [List.map_cons, List.map_nil, List.mem_cons, List.not_mem_nil, or_false] at hk
        rcases hk with rfl | rfl
        · exact dense (by omega) (by omega) (by decide) (by decide)
        · exact dense (by omega) (by omega) (by decide) (by decide)
      · intro e he
        simp only [List.mem_cons, List.not_mem_nil, or_false] at he
        rcases he with rfl | rfl
        · exact .bool _
        · exact .fin _ (by norm_num)
    · exact .inf _
    · exact .table (by decide) (by simp) (by simp)

/-- The text of the example. -/
example : toText noNumbers sample = some
    "{\n  a = math.huge,\n  b = {\n    -0.250000,\n    false,\n  },\n  empty = {},\n  map_frame = \"a \\\"map\\\"\\\n\",\n}".toList := by
  decide +kernel

/-- Print, read and print again. -/
example : ∃ s es', toText noNumbers sample = some s ∧ readReturn Fp.double.rnd ("return ".toList ++ s ++ ['\n']) = some es' ∧
    toText noNumbers es' = some s := by
  refine print_stable (fun _ _ => rfl) sample_good (.table fun e he => ?_)
  simp only [sample, List.mem_cons, List.not_mem_nil, or_false] at he
  rcases he with rfl | rfl | rfl | rfl
  · exact .str _
  · refine .table fun e he => ?_
    simp only [List.mem_cons, List.not_mem_nil, or_false] at he
    rcases he with rfl | rfl
    · exact .bool _
    · exact .fin _ ⟨1, -2, by decide, by decide, by norm_num [zpow_neg]⟩
  · exact .inf _
  · exact .table (by simp)

/-- Reading the text of the example, with numbers that are not rounded. -/
example : (readReturn id ("return ".toList ++ ((toText noNumbers sample).getD []) ++ ['\n'])).map (fun t => t.map Prod.fst) =
    some [.str "a".toList, .str "b".toList, .str "empty".toList, .str "map_frame".toList] := by
  decide +kernel

/-- The entries in another order. -/
example : toText noNumbers sample.reverse = toText noNumbers sample := by decide +kernel

example : reread Fp.double.rnd (1 / 10 ^ 7) = 0 := small_number_lost (by norm_num) (by norm_num)

example : reread Fp.double.rnd (Fp.double.rnd (((50000 : Nat) : ℚ) / 10 ^ 6)) = Fp.double.rnd (((50000 : Nat) : ℚ) / 10 ^ 6) :=
  reread_exact (by norm_num)

/-- A string with a control character before a digit and bytes above 127. -/
example : (readString 20 (escape [Char.ofNat 1, '7', Char.ofNat 200] ++ ['"'])) = some ([Char.ofNat 1, '7', Char.ofNat 200], []) := by
  decide +kernel

end Verif.LuaText
