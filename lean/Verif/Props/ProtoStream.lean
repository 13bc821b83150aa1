import Mathlib.Tactic.Ring
import Mathlib.Tactic.Linarith
import Mathlib.Tactic.NormNum
import Mathlib.Tactic.Positivity
import Verif.ProtoStream

/-!
C28: stream files read back exactly what was written; a file cut off at any byte yields a prefix. The last clause of the
property is false: a file cut off after the first eight bytes is never told apart from a complete one.
-/

namespace Verif.ProtoStream

variable {M : Type}

/-! ### Sizes -/

theorem get_cons {b : UInt8} {r : List UInt8} : get { rest := b :: r } = ((b.toNat : Int), { rest := r }) := rfl

theorem writeSize_length (n v : Nat) : (writeSize n v).length = n := by
  induction n generalizing v with
  | zero => rfl
  | succ n ih => simp [writeSize, ih]

theorem byte_toNat (v : Nat) : (UInt8.ofNat (v &&& 0xff)).toNat = v % 256 := by
  rw [show (0xff : Nat) = 2 ^ 8 - 1 from rfl, Nat.and_two_pow_sub_one_eq_mod]
  simp

theorem toU64_byte (b : Nat) (h : b < 256) : toU64 (b : Int) = b := by
  unfold toU64
  omega

/-- Reading what `writeSize` wrote, in the middle of the loop: `lo` has been read already. -/
theorem readSizeLoop_write (n : Nat) (hn : n ≤ 8) (lo w : Nat) (hlo : lo < 256 ^ (8 - n)) (r : List UInt8) :
    readSizeLoop n (lo * 256 ^ n) { rest := writeSize n w ++ r } =
      (lo + 256 ^ (8 - n) * (w % 256 ^ n), { rest := r }) := by
  induction n generalizing lo w with
  | zero => simp [readSizeLoop, writeSize, Nat.mod_one]
  | succ n ih =>
    have hb : w % 256 < 256 := Nat.mod_lt _ (by decide)
    obtain ⟨d, hd⟩ : ∃ d, 8 = n + 1 + d := ⟨8 - (n + 1), by omega⟩
    have h1 : 8 - (n + 1) = d := by omega
    have h2 : 8 - n = d + 1 := by omega
    rw [h1] at hlo ⊢
    rw [h2] at ih
    have hp : 256 ^ (d + 1) * 256 ^ n = word := by
      rw [← pow_add, show d + 1 + n = 8 by omega]
      norm_num [word]
    have hq : (256 : Nat) ^ d * 256 ^ n = 2 ^ 56 := by
      rw [← pow_add, show d + n = 7 by omega]
      norm_num
    have hlo' : lo + w % 256 * 256 ^ d < 256 ^ (d + 1) := by
      rw [pow_succ]
      nlinarith
    have hsz : (lo * 256 ^ (n + 1)) >>> 8 = lo * 256 ^ n := by
      rw [Nat.shiftRight_eq_div_pow, pow_succ, ← Nat.mul_assoc]
      exact Nat.mul_div_cancel _ (by decide)
    have hnew : (((lo * 256 ^ (n + 1)) >>> 8) + ((w % 256) <<< 56) % word) % word =
        (lo + w % 256 * 256 ^ d) * 256 ^ n := by
      rw [hsz, Nat.shiftLeft_eq]
      have e1 : w % 256 * 2 ^ 56 < word := by unfold word; omega
      rw [Nat.mod_eq_of_lt e1, ← hq]
      have e2 : lo * 256 ^ n + w % 256 * (256 ^ d * 256 ^ n) = (lo + w % 256 * 256 ^ d) * 256 ^ n := by ring
      rw [e2]
      apply Nat.mod_eq_of_lt
      rw [← hp]
      exact Nat.mul_lt_mul_of_pos_right hlo' (by positivity)
    have hstep : readSizeLoop (n + 1) (lo * 256 ^ (n + 1)) { rest := writeSize (n + 1) w ++ r } =
        readSizeLoop n ((((lo * 256 ^ (n + 1)) >>> 8) + ((toU64 ((UInt8.ofNat (w &&& 0xff)).toNat : Int)) <<< 56) % word)
          % word) { rest := writeSize n (w >>> 8) ++ r } := rfl
    rw [hstep, byte_toNat, toU64_byte _ hb, hnew, ih (by omega) _ _ hlo']
    refine Prod.ext ?_ rfl
    simp only
    rw [Nat.shiftRight_eq_div_pow, show (2 : Nat) ^ 8 = 256 by norm_num, pow_succ, pow_succ, Nat.mul_comm (256 ^ n) 256,
      Nat.mod_mul]
    ring

theorem readSize_write {v : Nat} (h : v < word) (r : List UInt8) :
    readSize { rest := writeSize 8 v ++ r } = (some v, { rest := r }) := by
  have := readSizeLoop_write 8 (le_refl _) 0 v (by decide) r
  rw [Nat.zero_mul] at this
  have hm : v % 256 ^ 8 = v := Nat.mod_eq_of_lt (by rw [show (256 : Nat) ^ 8 = word by norm_num [word]]; exact h)
  unfold readSize
  rw [this, hm]
  simp

theorem readSizeLoop_failed (n size : Nat) {s : IStream} (hf : s.fail = true) :
    (readSizeLoop n size s).2.fail = true ∧ (readSizeLoop n size s).2.eof = s.eof := by
  induction n generalizing size s with
  | zero => exact ⟨hf, rfl⟩
  | succ n ih =>
    have hg : get s = (-1, { s with fail := true }) := by simp [get, IStream.good, hf]
    simp only [readSizeLoop, hg]
    exact ih _ rfl

theorem readSizeLoop_short (n size : Nat) {r : List UInt8} (h : r.length < n) :
    (readSizeLoop n size { rest := r }).2.fail = true ∧ (readSizeLoop n size { rest := r }).2.eof = true := by
  induction n generalizing size r with
  | zero => cases h
  | succ n ih =>
    cases r with
    | nil =>
      have := readSizeLoop_failed n (((size >>> 8) + ((toU64 (-1)) <<< 56) % word) % word)
        (s := { rest := [], eof := true, fail := true }) rfl
      exact this
    | cons b r =>
      simp only [readSizeLoop, get_cons]
      exact ih _ (by simpa using h)

theorem readSize_short {r : List UInt8} (h : r.length < 8) :
    (readSize { rest := r }).1 = none ∧ (readSize { rest := r }).2.eof = true := by
  obtain ⟨h1, h2⟩ := readSizeLoop_short 8 0 h
  unfold readSize
  exact ⟨by simp only [h1, if_true], h2⟩

theorem kMagic_lt : kMagic < word := by decide

/-! ### Records -/

section

attribute [local irreducible] writeSize kMagic

theorem record_length_pos (c : Codec M) (m : M) : 8 ≤ (record c m).length := by
  simp [record, writeSize_length]

theorem readProto_record {c : Codec M} (hc : c.Lawful) (m : M) (r : List UInt8) :
    readProto c { rest := record c m ++ r } = some (some m, { rest := r }) := by
  have hfit := hc.fits m
  have hlt : c.maxAlloc < word := hc.maxAlloc_lt
  have hs : readSize { rest := record c m ++ r } =
      (some (c.gzip (c.serialize m)).length, { rest := c.gzip (c.serialize m) ++ r }) := by
    simp only [record, List.append_assoc]
    exact readSize_write (by omega) _
  have hb : readBytes (c.gzip (c.serialize m)).length { rest := c.gzip (c.serialize m) ++ r } =
      (some (c.gzip (c.serialize m)), { rest := r }) := by
    simp [readBytes, IStream.good]
  simp only [readProto, hs, hb, if_neg (by omega : ¬ c.maxAlloc < (c.gzip (c.serialize m)).length), hc.gunzip_gzip,
    hc.parse_serialize]

/-- A record that is cut off is not read, and the end of the file is reported. -/
theorem readProto_cut {c : Codec M} (hc : c.Lawful) (m : M) {n : Nat} (h : n < (record c m).length) :
    ∃ s, readProto c { rest := (record c m).take n } = some (none, s) ∧ s.eof = true := by
  by_cases h8 : n < 8
  · obtain ⟨h1, h2⟩ := readSize_short (r := (record c m).take n) (by rw [List.length_take]; omega)
    generalize hg : readSize { rest := (record c m).take n } = p at h1 h2
    obtain ⟨o, s⟩ := p
    simp only at h1 h2
    subst h1
    exact ⟨s, by simp [readProto, hg], h2⟩
  · have hfit := hc.fits m
    have hlt : c.maxAlloc < word := hc.maxAlloc_lt
    have hlen : (record c m).length = 8 + (c.gzip (c.serialize m)).length := by simp [record, writeSize_length]
    have ht : (record c m).take n =
        writeSize 8 (c.gzip (c.serialize m)).length ++ (c.gzip (c.serialize m)).take (n - 8) := by
      simp only [record, List.take_append, writeSize_length]
      rw [List.take_of_length_le (by rw [writeSize_length]; omega)]
    have hs := readSize_write (v := (c.gzip (c.serialize m)).length) (by omega) ((c.gzip (c.serialize m)).take (n - 8))
    rw [ht]
    have hb : readBytes (c.gzip (c.serialize m)).length { rest := (c.gzip (c.serialize m)).take (n - 8) } =
        (none, { rest := [], eof := true, fail := true }) := by
      simp only [readBytes, IStream.good, Bool.not_false, Bool.and_self, if_true, List.length_take]
      rw [if_neg (by omega)]
    refine ⟨{ rest := [], eof := true, fail := true }, ?_, rfl⟩
    simp only [readProto, hs, hb, if_neg (by omega : ¬ c.maxAlloc < (c.gzip (c.serialize m)).length)]

/-- The bytes of the records. -/
def body (c : Codec M) (ms : List M) : List UInt8 := ms.flatMap (record c)

theorem readLoop_cut {c : Codec M} (hc : c.Lawful) (ms : List M) (n : Nat) (fuel : Nat) (hf : ms.length < fuel) :
    ∃ k, k ≤ ms.length ∧ readLoop c fuel { rest := (body c ms).take n } = some (ms.take k, true) ∧
      (body c (ms.take k)).length ≤ n ∧ (k < ms.length → n < (body c (ms.take (k + 1))).length) := by
  induction ms generalizing n fuel with
  | nil =>
    obtain ⟨fuel, rfl⟩ : ∃ f, fuel = f + 1 := ⟨fuel - 1, by simp at hf; omega⟩
    refine ⟨0, le_refl _, ?_, by simp [body], by simp⟩
    obtain ⟨h1, h2⟩ := readSize_short (r := []) (by decide)
    generalize hg : readSize { rest := [] } = p at h1 h2
    obtain ⟨o, s⟩ := p
    simp only at h1 h2
    subst h1
    simp [body, readLoop, readProto, hg, h2]
  | cons m ms ih =>
    obtain ⟨fuel, rfl⟩ : ∃ f, fuel = f + 1 := ⟨fuel - 1, by simp at hf; omega⟩
    have hbody : body c (m :: ms) = record c m ++ body c ms := by simp [body]
    by_cases hn : n < (record c m).length
    · obtain ⟨s, h1, h2⟩ := readProto_cut hc m hn
      refine ⟨0, by simp, ?_, by simp [body], ?_⟩
      · rw [hbody, List.take_append_of_le_length (by omega)]
        simp [readLoop, h1, h2]
      · intro _
        simpa [body] using hn
    · obtain ⟨k, hk, h1, h2, h3⟩ := ih (n - (record c m).length) fuel (by simpa using hf)
      refine ⟨k + 1, by simpa using hk, ?_, ?_, ?_⟩
      · rw [hbody, List.take_append, List.take_of_length_le (by omega)]
        simp [readLoop, readProto_record hc, h1]
      · simp only [List.take_succ_cons, body, List.flatMap_cons, List.length_append] at h2 ⊢
        omega
      · intro hlt
        have := h3 (by simpa using hlt)
        simp only [List.take_succ_cons, body, List.flatMap_cons, List.length_append] at this ⊢
        omega

theorem openFile_ok (r : List UInt8) : openFile (writeSize 8 kMagic ++ r) = some { rest := r } := by
  simp only [openFile, readSize_write (v := kMagic) kMagic_lt r]
  simp [IStream.good]

theorem body_length_ge (c : Codec M) (ms : List M) : ms.length ≤ (body c ms).length := by
  induction ms with
  | nil => simp
  | cons m ms ih =>
    have := record_length_pos c m
    simp only [body, List.flatMap_cons, List.length_append, List.length_cons] at ih ⊢
    omega

/-- C28, second part: if the file is cut off after any number `n ≥ 8` of bytes, reading yields a prefix of the written messages,
namely all those whose records are complete, and then the end of the file. -/
theorem truncated_reads_prefix_partial {c : Codec M} (hc : c.Lawful) (ms : List M) {n : Nat} (hn : 8 ≤ n) :
    ∃ k, k ≤ ms.length ∧ readFile c ((writeFile c ms).take n) = some (ms.take k, true) ∧
      (writeFile c (ms.take k)).length ≤ n ∧ (k < ms.length → n < (writeFile c (ms.take (k + 1))).length) := by
  have hlen : ∀ l : List M, (writeFile c l).length = 8 + (body c l).length := by
    intro l
    simp [writeFile, writeSize_length, body]
  have ht : (writeFile c ms).take n = writeSize 8 kMagic ++ (body c ms).take (n - 8) := by
    simp only [writeFile, List.take_append, writeSize_length, body]
    rw [List.take_of_length_le (by rw [writeSize_length]; omega)]
  have key : ∃ fuel, readFile c ((writeFile c ms).take n) = readLoop c fuel { rest := (body c ms).take (n - 8) } ∧
      fuel = min n (writeFile c ms).length + 1 := by
    refine ⟨_, ?_, rfl⟩
    rw [← List.length_take]
    simp only [readFile]
    rw [ht, openFile_ok]
  obtain ⟨fuel, h1, h2⟩ := key
  rw [h1]
  -- the fuel suffices: only complete records are read, and each has at least eight bytes
  have main : ∀ (l : List M) (n' fuel : Nat), min n' (body c l).length + 1 < fuel + 1 →
      ∃ k, k ≤ l.length ∧ readLoop c fuel { rest := (body c l).take n' } = some (l.take k, true) ∧
        (body c (l.take k)).length ≤ n' ∧ (k < l.length → n' < (body c (l.take (k + 1))).length) := by
    intro l
    induction l with
    | nil => intro n' fuel hf; exact readLoop_cut hc [] n' fuel (by simp at hf ⊢; omega)
    | cons m l ih =>
      intro n' fuel hf
      obtain ⟨fuel, rfl⟩ : ∃ f, fuel = f + 1 := ⟨fuel - 1, by omega⟩
      have hbody : body c (m :: l) = record c m ++ body c l := by simp [body]
      by_cases hn : n' < (record c m).length
      · obtain ⟨s, h1, h2⟩ := readProto_cut hc m hn
        refine ⟨0, by simp, ?_, by simp [body], ?_⟩
        · rw [hbody, List.take_append_of_le_length (by omega)]
          simp [readLoop, h1, h2]
        · intro _
          simpa [body] using hn
      · have hpos := record_length_pos c m
        rw [hbody, List.length_append] at hf
        obtain ⟨k, hk, h1, h2, h3⟩ := ih (n' - (record c m).length) fuel (by omega)
        refine ⟨k + 1, by simpa using hk, ?_, ?_, ?_⟩
        · rw [hbody, List.take_append, List.take_of_length_le (by omega)]
          simp [readLoop, readProto_record hc, h1]
        · simp only [List.take_succ_cons, body, List.flatMap_cons, List.length_append] at h2 ⊢
          omega
        · intro hlt
          have := h3 (by simpa using hlt)
          simp only [List.take_succ_cons, body, List.flatMap_cons, List.length_append] at this ⊢
          omega
  obtain ⟨k, hk, g1, g2, g3⟩ := main ms (n - 8) fuel (by rw [h2, hlen]; omega)
  refine ⟨k, hk, g1, ?_, ?_⟩
  · rw [hlen]
    omega
  · intro hlt
    have := g3 hlt
    rw [hlen]
    omega

/-- C28, first part: a finished file yields exactly the written messages in order, then end of file. -/
theorem finished_reads_back {c : Codec M} (hc : c.Lawful) (ms : List M) :
    readFile c (writeFile c ms) = some (ms, true) := by
  have h8 : 8 ≤ (writeFile c ms).length := by simp [writeFile, writeSize_length]
  obtain ⟨k, hk, h1, h2, h3⟩ := truncated_reads_prefix_partial hc ms h8
  rw [List.take_length] at h1
  by_cases hlt : k < ms.length
  · have := h3 hlt
    have hsub : (writeFile c (ms.take (k + 1))).length ≤ (writeFile c ms).length := by
      have : ms = ms.take (k + 1) ++ ms.drop (k + 1) := (List.take_append_drop _ _).symm
      conv_rhs => rw [this]
      simp only [writeFile, List.flatMap_append, List.length_append]
      omega
    omega
  · rw [h1, List.take_of_length_le (by omega)]

/-- A file cut off within the first eight bytes is refused: the reader aborts. -/
theorem cut_in_magic_aborts {c : Codec M} (ms : List M) {n : Nat} (hn : n < 8) :
    readFile c ((writeFile c ms).take n) = none := by
  have := (readSize_short (r := (writeFile c ms).take n) (by rw [List.length_take]; omega)).1
  generalize hg : readSize { rest := (writeFile c ms).take n } = p at this
  obtain ⟨o, s⟩ := p
  simp only at this
  subst this
  simp [readFile, openFile, hg]

/-- Every eight bytes are the little endian bytes of some number. -/
theorem writeSize_surj (bs : List UInt8) : ∃ v, v < 256 ^ bs.length ∧ writeSize bs.length v = bs := by
  induction bs with
  | nil => exact ⟨0, by simp, by simp [writeSize]⟩
  | cons b bs ih =>
    obtain ⟨v, hv, he⟩ := ih
    have hb : b.toNat < 256 := b.toNat_lt
    refine ⟨b.toNat + 256 * v, ?_, ?_⟩
    · rw [List.length_cons, pow_succ]
      omega
    · rw [List.length_cons, writeSize]
      have h1 : (b.toNat + 256 * v) >>> 8 = v := by
        rw [Nat.shiftRight_eq_div_pow, show (2 : Nat) ^ 8 = 256 by norm_num]
        omega
      have h2 : UInt8.ofNat ((b.toNat + 256 * v) &&& 0xff) = b := by
        apply UInt8.toNat_inj.1
        rw [byte_toNat]
        omega
      rw [h1, h2, he]

/-- The bytes every accepted file starts with. -/
def magicBytes : List UInt8 := [0xdb, 0x01, 0xf5, 0x5b, 0x7b, 0x1f, 0x1d, 0x7b]

/-- A file is opened exactly if it starts with the magic number; anything else aborts. -/
theorem opened_iff_magic (file : List UInt8) : (openFile file).isSome ↔ file.take 8 = magicBytes := by
  have hm : writeSize 8 kMagic = magicBytes := by decide +kernel
  constructor
  · intro h
    by_cases hl : file.length < 8
    · have := (readSize_short hl).1
      generalize hg : readSize { rest := file } = p at this
      obtain ⟨o, s⟩ := p
      simp only at this
      subst this
      simp [openFile, hg] at h
    · have h8 : (file.take 8).length = 8 := by rw [List.length_take]; omega
      obtain ⟨v, hv, he⟩ := writeSize_surj (file.take 8)
      rw [h8] at hv he
      have hr := readSize_write (v := v) (by rw [show word = 256 ^ 8 by norm_num [word]]; exact hv) (file.drop 8)
      rw [he, List.take_append_drop] at hr
      simp only [openFile, hr] at h
      have : v = kMagic := by
        by_contra hne
        simp [hne] at h
      rw [← he, this, hm]
  · intro h
    rw [← List.take_append_drop 8 file, h, ← hm, openFile_ok]
    rfl

example : openFile [0xdb, 0x01, 0xf5, 0x5b, 0x7b, 0x1f, 0x1d, 0x7c, 5] = none ∧
    openFile [0xdb, 0x01, 0xf5, 0x5b, 0x7b, 0x1f, 0x1d, 0x7b, 5] = some { rest := [5] } := by decide +kernel

/-- Disagreement: a file cut off anywhere after the magic number reads exactly like the complete file of a prefix of the
messages. Both end with `eof()`. -/
theorem truncation_looks_complete {c : Codec M} (hc : c.Lawful) (ms : List M) {n : Nat} (hn : 8 ≤ n) :
    ∃ k, readFile c ((writeFile c ms).take n) = readFile c (writeFile c (ms.take k)) := by
  obtain ⟨k, -, h, -⟩ := truncated_reads_prefix_partial hc ms hn
  exact ⟨k, by rw [h, finished_reads_back hc]⟩

/-- Disagreement: so no test on what the reader returned can tell truncated files from complete ones. -/
theorem no_truncation_test {c : Codec M} (hc : c.Lawful) (m : M) :
    ¬ ∃ complete : List M × Bool → Bool,
      (∀ ms r, readFile c (writeFile c ms) = some r → complete r = true) ∧
      (∀ ms n r, n < (writeFile c ms).length → readFile c ((writeFile c ms).take n) = some r → complete r = false) := by
  rintro ⟨complete, h1, h2⟩
  have e1 := h1 [] _ (finished_reads_back hc [])
  have hlen : (writeFile c [m]).length = 8 + (record c m).length := by simp [writeFile, writeSize_length]
  have hpos := record_length_pos c m
  obtain ⟨k, hk, g1, g2, -⟩ := truncated_reads_prefix_partial hc [m] (le_refl 8)
  have hk0 : k = 0 := by
    rcases Nat.lt_or_ge 0 k with h | h
    · have : k = 1 := by simp at hk; omega
      subst this
      simp only [List.take_succ_cons, List.take_nil] at g2
      omega
    · omega
  subst hk0
  have e2 := h2 [m] 8 _ (by omega) g1
  simp only [List.take_zero] at e2
  rw [e1] at e2
  cases e2

end

/-! ### Example: messages are byte strings, stored uncompressed -/

def plain : Codec (List UInt8) := ⟨fun m => m.take 1000, fun b => some b, id, some, 2000⟩

/-- Messages of at most 1000 bytes. -/
def short : Codec { m : List UInt8 // m.length ≤ 1000 } :=
  ⟨fun m => m.1, fun b => if h : b.length ≤ 1000 then some ⟨b, h⟩ else none, id, some, 1000⟩

theorem short_lawful : short.Lawful :=
  ⟨fun m => by simp [short, m.2], fun _ => rfl, fun m => m.2, by decide⟩

example : readFile plain (writeFile plain [[1, 2, 3], [], [7]]) = some ([[1, 2, 3], [], [7]], true) := by decide +kernel

example : (writeFile plain [[1, 2, 3], [], [7]]).length = 36 ∧
    (writeFile plain [[1, 2, 3], [], [7]]).take 19 =
      [0xdb, 0x01, 0xf5, 0x5b, 0x7b, 0x1f, 0x1d, 0x7b, 3, 0, 0, 0, 0, 0, 0, 0, 1, 2, 3] := by decide +kernel

/-- Cut in the middle of the last record. -/
example : readFile plain ((writeFile plain [[1, 2, 3], [], [7]]).take 35) = some ([[1, 2, 3], []], true) := by decide +kernel

end Verif.ProtoStream
