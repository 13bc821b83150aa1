import Verif.Image
import Verif.Props.RangeDataInserter2D
import Verif.Props.SubmapTexture
import Mathlib.Tactic.IntervalCases
import Mathlib.Tactic.FieldSimp

/-!
# Images: pixels, rotation and the image of a probability grid (C102)
-/

namespace Verif.Img

open Verif.Grid2D Verif.Prob Verif.Texture

/-! ### Specification -/

/-- The components are bytes. -/
def Rgb.Ok (c : Rgb) : Prop := c.r < 256 ∧ c.g < 256 ∧ c.b < 256

/-- The vector has the size of the image. -/
def Image.Ok (im : Image) : Prop := im.pixels.length = im.width * im.height

/-- `im` is a picture of the grid `g`: one opaque grey pixel for every cell of a rectangle that contains all known cells.
Unknown cells are 128; for known cells the probabilities from 0.9 to 0.1 are mapped to 0 up to 255 and rounded. -/
def Pictures (g : Grid) (im : Image) : Prop :=
  im.Ok ∧ 1 ≤ im.width ∧ 1 ≤ im.height ∧
  (∀ i, val g i ≠ 0 → ∃ u v : Nat, u < im.width ∧ v < im.height ∧ i = addIdx ((u : Int), (v : Int)) g.croppedLimits.1) ∧
  ∀ u v : Nat, u < im.width → v < im.height → ∃ c : Nat, c < 256 ∧ im.getPixel u v = some ⟨c, c, c⟩ ∧
    (val g (addIdx ((u : Int), (v : Int)) g.croppedLimits.1) = 0 → c = 128) ∧
    (val g (addIdx ((u : Int), (v : Int)) g.croppedLimits.1) ≠ 0 →
      |(c : ℚ) - 255 * (9 / 10 - cellProb (val g (addIdx ((u : Int), (v : Int)) g.croppedLimits.1))) / (8 / 10)| ≤ 1 / 2)

/-- A remainder of a division by 6. -/
def mod6 (x : ℚ) : ℚ := x - 6 * ⌊x / 6⌋

/-- The usual formula for a color with hue `h` (in turns), saturation `s` and value `v`:
red is `component 5`, green `component 3` and blue `component 1`. -/
def component (h s v : ℚ) (n : ℚ) : ℚ := v - v * s * max 0 (min (mod6 (n + 6 * h)) (min (4 - mod6 (n + 6 * h)) 1))

/-! ### Pixels -/

theorem pack_eq {c : Rgb} (h : c.Ok) : pack c = 255 * 16777216 + (c.r * 65536 + (c.g * 256 + c.b)) := by
  obtain ⟨h1, h2, h3⟩ := h
  have e1 : c.g <<< 8 ||| c.b = c.g * 256 + c.b := by
    rw [← Nat.shiftLeft_add_eq_or_of_lt (by omega), Nat.shiftLeft_eq]
  have e2 : c.r <<< 16 ||| (c.g * 256 + c.b) = c.r * 65536 + (c.g * 256 + c.b) := by
    rw [← Nat.shiftLeft_add_eq_or_of_lt (by omega), Nat.shiftLeft_eq]
  have e3 : 255 <<< 24 ||| (c.r * 65536 + (c.g * 256 + c.b)) = 255 * 16777216 + (c.r * 65536 + (c.g * 256 + c.b)) := by
    rw [← Nat.shiftLeft_add_eq_or_of_lt (by omega), Nat.shiftLeft_eq]
  unfold pack
  rw [Nat.or_assoc, Nat.or_assoc, e1, e2, e3]

/-- **C102**: a color survives the format of cairo; the pixel is opaque and fits into 32 bits. -/
theorem color_round_trip {c : Rgb} (h : c.Ok) : unpack (pack c) = c ∧ pack c < 2 ^ 32 ∧ pack c / 2 ^ 24 = 255 := by
  rw [pack_eq h]
  obtain ⟨h1, h2, h3⟩ := h
  refine ⟨?_, by omega, by omega⟩
  cases c
  simp only at h1 h2 h3
  simp only [unpack, Nat.shiftRight_eq_div_pow, Rgb.mk.injEq]
  omega

example : pack ⟨1, 2, 3⟩ = 0xff010203 ∧ unpack 0xff010203 = ⟨1, 2, 3⟩ := by decide +kernel

theorem index_lt {w h x y : Nat} (hx : x < w) (hy : y < h) : y * w + x < w * h := by
  calc y * w + x < y * w + w := by omega
    _ = (y + 1) * w := by ring
    _ ≤ h * w := Nat.mul_le_mul_right _ hy
    _ = w * h := mul_comm _ _

theorem index_inj {w x y x' y' : Nat} (hx : x < w) (hx' : x' < w) (h : y * w + x = y' * w + x') : x = x' ∧ y = y' := by
  have := divmod_inj (q := y) (q' := y') hx hx' (by rw [mul_comm w y, mul_comm w y']; exact h)
  exact ⟨this.2, this.1⟩

theorem create_ok (w h : Nat) : (create w h).Ok := by simp [create, Image.Ok]

/-- **C102**: in a new image all pixels are black and transparent. -/
theorem new_image {w h x y : Nat} (hx : x < w) (hy : y < h) :
    (create w h).getPixel x y = some ⟨0, 0, 0⟩ ∧ (create w h).pixels[y * w + x]? = some 0 := by
  have : (create w h).pixels[y * w + x]? = some 0 := by
    simp [create, index_lt hx hy]
  exact ⟨by simp only [Image.getPixel, create] at this ⊢; rw [this]; rfl, this⟩

/-- **C102**: setting a pixel inside of the image changes that pixel and no other. -/
theorem set_get {im : Image} (ok : im.Ok) {c : Rgb} (hc : c.Ok) {x y : Nat} (hx : x < im.width) (hy : y < im.height) :
    ∃ im', im.setPixel x y c = some im' ∧ im'.Ok ∧ im'.width = im.width ∧ im'.height = im.height ∧
      im'.getPixel x y = some c ∧ ∀ x' y', x' < im.width → y' < im.height → (x', y') ≠ (x, y) → im'.getPixel x' y' = im.getPixel x' y' := by
  have hlt : y * im.width + x < im.pixels.length := by rw [ok]; exact index_lt hx hy
  refine ⟨{ im with pixels := im.pixels.set (y * im.width + x) (pack c) }, ?_, ?_, rfl, rfl, ?_, ?_⟩
  · simp [Image.setPixel, setAt?, hlt]
  · simp only [Image.Ok, List.length_set]; exact ok
  · simp [Image.getPixel, hlt, (color_round_trip hc).1]
  · intro x' y' hx' hy' hne
    have : y * im.width + x ≠ y' * im.width + x' := by
      intro e
      obtain ⟨e1, e2⟩ := index_inj hx hx' e
      exact hne (by rw [e1, e2])
    simp [Image.getPixel, List.getElem?_set_ne this]

example : ((create 3 2).setPixel 2 1 ⟨7, 8, 9⟩).bind (fun im => im.getPixel 2 1) = some ⟨7, 8, 9⟩ ∧
    (create 3 2).setPixel 0 2 ⟨7, 8, 9⟩ = none := by decide +kernel

/-- There is no check of the column: a column right of the image is a pixel of the next line. -/
theorem column_not_checked (im : Image) (x y : Nat) : im.getPixel (im.width + x) y = im.getPixel x (y + 1) := by
  simp only [Image.getPixel]
  rw [show y * im.width + (im.width + x) = (y + 1) * im.width + x by ring]

/-- **C102**: an image that is made from a surface has its pixels. -/
theorem surface_copied {s : Surface} {im : Image} (h : fromSurface s = some im) :
    im.Ok ∧ im.width = s.width ∧ im.height = s.height ∧
      ∀ x y, x < im.width → y < im.height → im.pixels[y * im.width + x]? = s.data[y * s.stride + x]? := by
  unfold fromSurface at h
  split at h
  · rename_i hc
    obtain ⟨-, h2, h3⟩ := hc
    obtain rfl := Option.some.inj h
    refine ⟨by simp [Image.Ok, h3], rfl, rfl, ?_⟩
    intro x y hx hy
    simp only at hx hy ⊢
    rw [List.getElem?_take_of_lt (index_lt hx hy), h2]
  · cases h

example : (fromSurface ⟨true, 2, 1, 2, [5, 6]⟩).isSome = true ∧ fromSurface ⟨true, 2, 1, 4, [5, 6, 0, 0]⟩ = none := by decide +kernel

/-! ### Rotation -/

theorem flat_length {α : Type} (f : Nat → List α) {n : Nat} (m : Nat) (hf : ∀ x < m, (f x).length = n) :
    ((List.range m).flatMap f).length = m * n := by
  induction m with
  | zero => simp
  | succ m ih =>
    rw [List.range_succ, List.flatMap_append, List.length_append, ih (fun x hx => hf x (by omega))]
    simp [hf m (by omega)]
    ring

theorem flat_get {α : Type} (f : Nat → List α) {n : Nat} (m : Nat) (hf : ∀ x < m, (f x).length = n) {x k : Nat} (hx : x < m) (hk : k < n) :
    ((List.range m).flatMap f)[x * n + k]? = (f x)[k]? := by
  induction m with
  | zero => omega
  | succ m ih =>
    have hl := flat_length f m (fun x hx => hf x (by omega))
    rw [List.range_succ, List.flatMap_append]
    rcases Nat.lt_or_ge x m with h | h
    · rw [List.getElem?_append_left, ih (fun x hx => hf x (by omega)) h]
      rw [hl]
      rw [mul_comm m n]
      exact index_lt hk h
    · obtain rfl : x = m := by omega
      rw [List.getElem?_append_right (by omega), hl, Nat.add_sub_cancel_left]
      simp

theorem order_length (w h : Nat) : (rotateOrder w h).length = w * h :=
  flat_length _ _ (by simp)

theorem order_get {w h x y : Nat} (hx : x < w) (hy : y < h) : (rotateOrder w h)[x * h + (h - 1 - y)]? = some (y * w + x) := by
  unfold rotateOrder
  rw [flat_get _ (n := h) w (by simp) hx (by omega), List.getElem?_map, List.getElem?_reverse (by simp; omega)]
  simp only [List.length_range]
  rw [List.getElem?_range (by omega), Option.map_some, show h - 1 - (h - 1 - y) = y by omega]

theorem mapM_some {α β : Type} {f : α → Option β} : ∀ {l : List α}, (∀ a ∈ l, (f a).isSome = true) →
    ∃ l', l.mapM f = some l' ∧ l'.length = l.length ∧ ∀ (k : Nat) (a : α), l[k]? = some a → l'[k]? = f a
  | [], _ => ⟨[], by simp, rfl, by simp⟩
  | a :: l, h => by
    obtain ⟨b, hb⟩ := Option.isSome_iff_exists.1 (h a (by simp))
    obtain ⟨l', e1, e2, e3⟩ := mapM_some (l := l) (fun x hx => h x (by simp [hx]))
    refine ⟨b :: l', by simp [List.mapM_cons, hb, e1], by simp [e2], ?_⟩
    intro k x hk
    cases k with
    | zero => simp only [List.getElem?_cons_zero, Option.some.injEq] at hk ⊢; rw [← hk, hb]
    | succ k => simp only [List.getElem?_cons_succ] at hk ⊢; exact e3 k x hk

/-- **C102**: rotating never reads outside of the image and exchanges width and height; the pixel in column `x` and row `y` moves to
row `x` and to column `y` counted from the right. -/
theorem rotate_spec {im : Image} (ok : im.Ok) : ∃ im', im.rotate = some im' ∧ im'.Ok ∧ im'.width = im.height ∧ im'.height = im.width ∧
    ∀ x y, x < im.width → y < im.height → im'.pixels[x * im'.width + (im.height - 1 - y)]? = im.pixels[y * im.width + x]? ∧
      im'.getPixel (im.height - 1 - y) x = im.getPixel x y := by
  obtain ⟨px, e1, e2, e3⟩ := mapM_some (f := fun k => im.pixels[k]?) (l := rotateOrder im.width im.height) (by
    intro k hk
    obtain ⟨x, hx, hk⟩ := List.mem_flatMap.1 hk
    obtain ⟨y, hy, rfl⟩ := List.mem_map.1 hk
    rw [List.mem_reverse] at hy
    rw [List.mem_range] at hx hy
    rw [Option.isSome_iff_exists]
    exact ⟨_, List.getElem?_eq_getElem (by rw [ok]; exact index_lt hx hy)⟩)
  refine ⟨⟨im.height, im.width, px⟩, by simp [Image.rotate, e1], ?_, rfl, rfl, ?_⟩
  · simp only [Image.Ok, e2, order_length]; ring
  · intro x y hx hy
    have := e3 _ _ (order_get hx hy)
    exact ⟨this, by simp only [Image.getPixel, this]⟩

/-- Images with the same pixels are the same. -/
theorem image_ext {a b : Image} (oa : a.Ok) (ob : b.Ok) (hw : a.width = b.width) (hh : a.height = b.height)
    (hp : ∀ x y, x < a.width → y < a.height → a.pixels[y * a.width + x]? = b.pixels[y * a.width + x]?) : a = b := by
  have : a.pixels = b.pixels := by
    apply List.ext_getElem?
    intro k
    rcases Nat.lt_or_ge k (a.width * a.height) with hk | hk
    · have hw0 : 0 < a.width := by
        rcases Nat.eq_zero_or_pos a.width with h | h
        · rw [h] at hk; omega
        · exact h
      have h1 := hp (k % a.width) (k / a.width) (Nat.mod_lt _ hw0) (Nat.div_lt_of_lt_mul hk)
      rw [mul_comm, Nat.div_add_mod] at h1
      exact h1
    · rw [List.getElem?_eq_none (by rw [oa]; exact hk), List.getElem?_eq_none (by rw [ob, ← hw, ← hh]; exact hk)]
  cases a; cases b; simp_all

/-- **C102**: four rotations give the same image again. -/
theorem rotate_four {im : Image} (ok : im.Ok) : ((im.rotate.bind Image.rotate).bind Image.rotate).bind Image.rotate = some im := by
  obtain ⟨a, a1, a2, a3, a4, a5⟩ := rotate_spec ok
  obtain ⟨b, b1, b2, b3, b4, b5⟩ := rotate_spec a2
  obtain ⟨c, c1, c2, c3, c4, c5⟩ := rotate_spec b2
  obtain ⟨d, d1, d2, d3, d4, d5⟩ := rotate_spec c2
  rw [a1, Option.bind_some, b1, Option.bind_some, c1, Option.bind_some, d1]
  congr 1
  have hw : d.width = im.width := by omega
  have hh : d.height = im.height := by omega
  refine image_ext d2 ok hw hh ?_
  intro x y hx hy
  have p1 := (a5 x y (by omega) (by omega)).1
  have p2 := (b5 (im.height - 1 - y) x (by omega) (by omega)).1
  have p3 := (c5 (a.height - 1 - x) (im.height - 1 - y) (by omega) (by omega)).1
  have p4 := (d5 (b.height - 1 - (im.height - 1 - y)) (a.height - 1 - x) (by omega) (by omega)).1
  rw [show c.height - 1 - (a.height - 1 - x) = x by omega, show b.height - 1 - (im.height - 1 - y) = y by omega] at p4
  rw [show b.height - 1 - (im.height - 1 - y) = y by omega] at p3
  rw [p4, p3, p2, p1, hw]

example : (Image.rotate ⟨3, 2, [1, 2, 3, 4, 5, 6]⟩) = some ⟨2, 3, [4, 1, 5, 2, 6, 3]⟩ := by decide +kernel

/-! ### The image of a probability grid -/

theorem color_scale (p : ℚ) : 255 * ((1 - p - minProbability) / (maxProbability - minProbability)) = 255 * (9 / 10 - p) / (8 / 10) := by
  have e1 : minProbability = 1 / 10 := by norm_num [minProbability]
  have e2 : maxProbability = 9 / 10 := by rw [maxProbability, e1]; norm_num
  rw [e1, e2]; ring

theorem color_range {p : ℚ} (h1 : minProbability ≤ p) (h2 : p ≤ maxProbability) :
    (probabilityToColor p : Int) = roundToInt (255 * (9 / 10 - p) / (8 / 10)) ∧ probabilityToColor p < 256 ∧
      0 ≤ 255 * (9 / 10 - p) / (8 / 10) := by
  have e1 : minProbability = 1 / 10 := by norm_num [minProbability]
  have e2 : maxProbability = 9 / 10 := by rw [maxProbability, e1]; norm_num
  rw [e1] at h1
  rw [e2] at h2
  have a0 : 0 ≤ 255 * (9 / 10 - p) / (8 / 10) := by
    have : 0 ≤ 9 / 10 - p := by linarith
    positivity
  have a1 : 255 * (9 / 10 - p) / (8 / 10) ≤ ((255 : Int) : ℚ) := by push_cast; linarith
  have r0 : 0 ≤ roundToInt (255 * (9 / 10 - p) / (8 / 10)) := by
    have := roundToInt_mono (le_refl 0) a0
    have h0 : roundToInt 0 = 0 := by simpa using roundToInt_intCast 0 (le_refl 0)
    omega
  have r1 := roundToInt_le_int a0 a1
  unfold probabilityToColor
  rw [color_scale]
  exact ⟨by omega, by omega, a0⟩

/-- **C102**: a more likely obstacle is never brighter; the extreme probabilities are black and white. -/
theorem color_monotone {p q : ℚ} (h1 : minProbability ≤ p) (h : p ≤ q) (h2 : q ≤ maxProbability) :
    probabilityToColor q ≤ probabilityToColor p := by
  obtain ⟨a1, a2, a3⟩ := color_range h1 (h.trans h2)
  obtain ⟨b1, b2, b3⟩ := color_range (h1.trans h) h2
  have := roundToInt_mono b3 (y := 255 * (9 / 10 - p) / (8 / 10)) (by linarith)
  omega

theorem color_ends : probabilityToColor minProbability = 255 ∧ probabilityToColor maxProbability = 0 := by decide +kernel

theorem cellColor_eq {g : Grid} (w : Wf g) (hu : g.updates = []) {i : Int × Int} (hi : g.limits.contains i = true) :
    ∃ c : Nat, cellColor g i = some c ∧ c < 256 ∧ (val g i = 0 → c = 128) ∧
      (val g i ≠ 0 → |(c : ℚ) - 255 * (9 / 10 - cellProb (val g i)) / (8 / 10)| ≤ 1 / 2) := by
  by_cases hv : val g i = 0
  · refine ⟨128, ?_, by norm_num, fun _ => rfl, fun h => absurd hv h⟩
    simp [cellColor, isKnown_eq w, hv]
  · have hlt := Wf.lt_marker w hu i
    rw [updateMarker_eq] at hlt
    have hr := cellProb_range (v := val g i) (by omega) (by omega)
    obtain ⟨c1, c2, c3⟩ := color_range hr.1 hr.2
    refine ⟨probabilityToColor (cellProb (val g i)), ?_, c2, fun h => absurd h hv, fun _ => ?_⟩
    · have e : costToProbability (valueToCost (val g i)) = cellProb (val g i) := rfl
      simp [cellColor, isKnown_eq w, hv, getProbability_eq w i hi, e]
    · have := roundToInt_nearest (255 * (9 / 10 - cellProb (val g i)) / (8 / 10))
      rw [← c1] at this
      exact_mod_cast this

theorem draw_scatter (g : Grid) (off : Int × Int) (is : List (Int × Int)) : ∀ im : Image, is.foldlM (drawCell g off) im =
    (scatter (fun i : Int × Int => i.2.toNat * im.width + i.1.toNat)
      (fun i => (cellColor g (addIdx i off)).map fun v => pack ⟨v, v, v⟩) is im.pixels).map fun px => { im with pixels := px } := by
  induction is with
  | nil => intro im; rfl
  | cons i is ih =>
    intro im
    rw [List.foldlM_cons]
    simp only [scatter, List.foldlM_cons, drawCell, Image.setPixel, Option.bind_eq_bind]
    cases cellColor g (addIdx i off) with
    | none => rfl
    | some v =>
      simp only [Option.bind_some, Option.map_some]
      cases setAt? im.pixels (i.2.toNat * im.width + i.1.toNat) (pack ⟨v, v, v⟩) with
      | none => rfl
      | some px =>
        simp only [Option.bind_some]
        rw [ih]
        rfl

/-- **C102**: drawing a probability grid without pending updates always gives an image, never the null pointer, and it
pictures the grid. -/
theorem draw_pictures {g : Grid} (w : Wf g) (hu : g.updates = []) : ∃ im, drawProbabilityGrid g = some (some im) ∧ Pictures g im := by
  obtain ⟨nx, ny, h1, h2, h3, h4, h5⟩ := cropped_size w
  have hmem : ∀ i ∈ rowMajor 0 0 nx ny, ∃ u v : Nat, u < nx ∧ v < ny ∧ i = ((u : Int), (v : Int)) := by
    intro i hi
    obtain ⟨r, hr, hi⟩ := List.mem_flatMap.1 hi
    obtain ⟨c, hc, rfl⟩ := List.mem_map.1 hi
    rw [List.mem_range] at hr hc
    exact ⟨c, r, hc, hr, by simp⟩
  obtain ⟨px, p1, p2, p3, -⟩ := scatter_spec (fun i : Int × Int => i.2.toNat * nx + i.1.toNat)
    (fun i => (cellColor g (addIdx i g.croppedLimits.1)).map fun v => pack ⟨v, v, v⟩) (rowMajor 0 0 nx ny) (create nx ny).pixels
    (by
      intro i hi
      obtain ⟨u, v, hu', hv', rfl⟩ := hmem i hi
      simp only [create, List.length_replicate, Int.toNat_natCast]
      exact index_lt hu' hv')
    (by
      intro i hi
      obtain ⟨u, v, hu', hv', rfl⟩ := hmem i hi
      obtain ⟨c, e, -⟩ := cellColor_eq w hu (h5 u v hu' hv')
      exact ⟨_, by rw [e]; rfl⟩)
    (by
      intro i hi j hj e
      obtain ⟨u, v, hu', hv', rfl⟩ := hmem i hi
      obtain ⟨u', v', hu'', hv'', rfl⟩ := hmem j hj
      simp only [Int.toNat_natCast] at e
      obtain ⟨rfl, rfl⟩ := index_inj hu' hu'' e
      rfl)
  refine ⟨⟨nx, ny, px⟩, ?_, ?_, h1, h2, h4, ?_⟩
  · unfold drawProbabilityGrid
    rw [h3, if_neg (by simp only [not_or]; omega), xyIndices_eq h1, Option.bind_eq_bind, Option.bind_some]
    simp only [Int.toNat_natCast, draw_scatter]
    have : (create nx ny).width = nx := rfl
    rw [this, p1]
    rfl
  · simp only [Image.Ok, p2, create, List.length_replicate]
  · intro u v hu' hv'
    obtain ⟨c, e, c1, c2, c3⟩ := cellColor_eq w hu (h5 u v hu' hv')
    refine ⟨c, c1, ?_, c2, c3⟩
    have hin : ((u : Int), (v : Int)) ∈ rowMajor 0 0 nx ny := by
      refine List.mem_flatMap.2 ⟨v, List.mem_range.2 hv', List.mem_map.2 ⟨u, List.mem_range.2 hu', by simp⟩⟩
    have := p3 _ hin
    simp only [Int.toNat_natCast, e, Option.map_some] at this
    simp only [Image.getPixel, this, Option.bind_eq_bind, Option.bind_some]
    rw [(color_round_trip (c := ⟨c, c, c⟩) ⟨c1, c1, c1⟩).1]

/-- **C102**: grey does not mean unknown: a known cell looks like an unknown one exactly if its probability is close to one half. -/
theorem grey_ambiguous {p : ℚ} (h1 : minProbability ≤ p) (h2 : p ≤ maxProbability) :
    probabilityToColor p = 128 ↔ 127.5 ≤ 255 * (9 / 10 - p) / (8 / 10) ∧ 255 * (9 / 10 - p) / (8 / 10) < 128.5 := by
  obtain ⟨a1, a2, a3⟩ := color_range h1 h2
  have : probabilityToColor p = 128 ↔ roundToInt (255 * (9 / 10 - p) / (8 / 10)) = 128 := by omega
  rw [this, round_nonneg_iff (by norm_num)]
  norm_num

/-- The cell value for probability 0.5. -/
example : cellProb 16384 = 1 / 2 ∧ probabilityToColor (cellProb 16384) = 128 := by decide +kernel

/-- A grid of four cells with the probabilities 0.9, unknown, 0.5 and 0.1. -/
example : drawProbabilityGrid ⟨⟨1, 2, 2, 2, 2⟩, [1, 0, 16384, 32767], Verif.Prob.minCost, Verif.Prob.maxCost, [], some ⟨0, 0, 1, 1⟩⟩ =
    some (some ⟨2, 2, [0xff000000, 0xff808080, 0xff808080, 0xffffffff]⟩) := by decide +kernel

/-- **C102**: an empty grid gives an image with one grey pixel, although it should give none. -/
theorem empty_grid {g : Grid} (w : Wf g) (hb : g.box = none) :
    ∃ im, drawProbabilityGrid g = some (some im) ∧ im.width = 1 ∧ im.height = 1 ∧ im.getPixel 0 0 = some ⟨128, 128, 128⟩ := by
  have hv : val g (0, 0) = 0 := by
    by_contra h
    obtain ⟨b, e, -⟩ := w.box _ h
    rw [hb] at e
    cases e
  have hk : cellColor g (0, 0) = some 128 := by simp [cellColor, isKnown_eq w, hv]
  refine ⟨⟨1, 1, [pack ⟨128, 128, 128⟩]⟩, ?_, rfl, rfl, by decide +kernel⟩
  have e : g.croppedLimits = ((0, 0), (1, 1)) := by simp [Grid.croppedLimits, hb]
  have hx : xyIndices 1 1 = some [((0 : Int), (0 : Int))] := by decide +kernel
  have hk' : cellColor g (addIdx (0, 0) (0, 0)) = some 128 := hk
  simp [drawProbabilityGrid, e, hx, drawCell, hk', create, Image.setPixel, setAt?]

/-! ### The points processor -/

/-- A shift of the limits by whole cells shifts the index of a point. -/
theorem grown_index {g g' : Grid} {ox oy : Nat} (h : Grown g g' ox oy) (w : Wf g) {p : Insert2D.Pt} (hi : Insert2D.Inside g.limits p) :
    g'.limits.getCellIndex p.1 p.2 = addIdx (g.limits.getCellIndex p.1 p.2) ((ox : Int), (oy : Int)) := by
  have hr := w.res
  obtain ⟨c1, c2, -, -⟩ := (contains_def _).1 hi
  have key : ∀ (m q : ℚ) (o : Nat), 0 ≤ roundToInt ((m - q) / g.limits.resolution - 1 / 2) → q < m →
      roundToInt ((m + g.limits.resolution * (o : ℚ) - q) / g.limits.resolution - 1 / 2) =
        roundToInt ((m - q) / g.limits.resolution - 1 / 2) + o := by
    intro m q o h0 hq
    have e : (m + g.limits.resolution * (o : ℚ) - q) / g.limits.resolution - 1 / 2 = ((m - q) / g.limits.resolution - 1 / 2) + o := by
      field_simp; ring
    rw [e]
    have hpos : 0 < (m - q) / g.limits.resolution := div_pos (by linarith) hr
    generalize hx : (m - q) / g.limits.resolution - 1 / 2 = x at *
    have hx0 : -1 / 2 < x := by linarith
    rcases Nat.eq_zero_or_pos o with ho | ho
    · simp [ho]
    have ho' : (1 : ℚ) ≤ o := by exact_mod_cast ho
    rcases eq_or_lt_of_le h0 with hz | hz
    · rw [← hz, zero_add]
      have := round_zero_iff.1 hz.symm
      rw [round_nonneg_iff (by omega)]
      push_cast
      constructor <;> linarith [this.1, this.2]
    · have := (round_nonneg_iff (x := x) (n := roundToInt x) (by omega)).1 rfl
      rw [round_nonneg_iff (by omega)]
      push_cast
      constructor <;> linarith [this.1, this.2]
  have hin := (contains_iff w.res w.nx w.ny p.1 p.2).1 hi
  simp only [MapLimits.getCellIndex, addIdx, h.res, h.maxX, h.maxY] at c1 c2 ⊢
  rw [key _ _ _ c1 hin.2.2, key _ _ _ c2 hin.1.2]

theorem hit_known {hit miss : List Nat} {v v' : Nat} {isHit isFree : Prop} (hh : TableOk hit) (hm : TableOk miss)
    (n : Insert2D.NewValue hit miss isHit isFree v v') (h : isHit ∨ v ≠ 0) : v' ≠ 0 := by
  have table : ∀ t : List Nat, TableOk t → t[v]? = some (v' + updateMarker) → v' ≠ 0 := by
    intro t ht e h0
    have := (ht.2 _ (List.mem_of_getElem? e)).1
    omega
  by_cases a : isHit
  · exact table hit hh (n.1 a)
  · by_cases b : isFree
    · exact table miss hm (n.2.1 a b)
    · rw [n.2.2 a b]
      tauto

theorem processAll_spec {hit miss : List Nat} (hh : TableOk hit) (hm : TableOk miss) (free : Bool)
    (batches : List (Insert2D.Pt × List Insert2D.Pt)) : ∀ (g : Grid) (seen : List Insert2D.Pt), Wf g → g.updates = [] →
    (∀ p ∈ seen, Insert2D.Inside g.limits p ∧ val g (g.limits.getCellIndex p.1 p.2) ≠ 0) →
    ∃ m g', (∀ n, m ≤ n → processAll n hit miss free batches g = some g') ∧ Wf g' ∧ g'.updates = [] ∧
      ∀ p ∈ seen ++ batches.flatMap (·.2), Insert2D.Inside g'.limits p ∧ val g' (g'.limits.getCellIndex p.1 p.2) ≠ 0 := by
  induction batches with
  | nil => intro g seen w hu hs; exact ⟨0, g, fun _ _ => rfl, w, hu, by simpa using hs⟩
  | cons b bs ih =>
    intro g seen w hu hs
    obtain ⟨m0, G, ox, oy, hg, wG, gr, hin⟩ := Insert2D.grow_spec ⟨b.1, b.2, []⟩ w hu
    obtain ⟨m1, g1, e1, w1, u1, l1, v1⟩ := Insert2D.castRays_spec ⟨b.1, b.2, []⟩ hh hm free ⟨m0, hg⟩ wG (gr.updates.trans hu) hin
    obtain ⟨m2, g2, e2, w2, u2, s2⟩ := ih g1 (seen ++ b.2) w1 u1 (by
      intro p hp
      rw [l1]
      rcases List.mem_append.1 hp with hp | hp
      · obtain ⟨i1, i2⟩ := hs p hp
        refine ⟨Insert2D.Grown.contains gr w wG i1, ?_⟩
        refine hit_known hh hm (v1 _) (Or.inr ?_)
        rw [gr.val, grown_index gr w i1]
        have : addIdx (addIdx (g.limits.getCellIndex p.1 p.2) ((ox : Int), (oy : Int))) (-(ox : Int), -(oy : Int)) =
            g.limits.getCellIndex p.1 p.2 := by
          apply Prod.ext <;> simp [addIdx]
        rw [this]
        exact i2
      · refine ⟨hin p (by simp [Insert2D.Scan.points, hp]), ?_⟩
        exact hit_known hh hm (v1 _) (Or.inl ⟨p, hp, rfl⟩))
    refine ⟨max m1 m2, g2, ?_, w2, u2, ?_⟩
    · intro n hn
      simp only [processAll, List.foldlM_cons, Option.bind_eq_bind]
      rw [e1 n (le_trans (le_max_left _ _) hn), Option.bind_some]
      exact e2 n (le_trans (le_max_right _ _) hn)
    · intro p hp
      refine s2 p ?_
      simpa [List.flatMap_cons, List.append_assoc] using hp

/-- **C102**: the whole processor: for every sequence of batches an image is written that pictures the final grid.  Every point
of every batch lies in a known cell and, with the same function that places trajectories, on the pixel of that cell. -/
theorem grid_image {resolution : ℚ} (hr : 0 < resolution) {hit miss : List Nat} (hh : TableOk hit) (hm : TableOk miss) (free : Bool)
    (batches : List (Insert2D.Pt × List Insert2D.Pt)) :
    ∃ m g im, (∀ n, m ≤ n → gridImage n resolution hit miss free batches = some (some im)) ∧ Pictures g im ∧
      ∀ b ∈ batches, ∀ p ∈ b.2, ∃ u v : Nat, u < im.width ∧ v < im.height ∧
        poseToPixel g g.croppedLimits.1 p.1 p.2 = ((u : Int), (v : Int)) ∧
        val g (addIdx ((u : Int), (v : Int)) g.croppedLimits.1) ≠ 0 ∧
        |p.1 - (g.limits.getCellCenter (addIdx ((u : Int), (v : Int)) g.croppedLimits.1)).1| ≤ g.limits.resolution / 2 ∧
        |p.2 - (g.limits.getCellCenter (addIdx ((u : Int), (v : Int)) g.croppedLimits.1)).2| ≤ g.limits.resolution / 2 := by
  have hl : mkLimits resolution (1 / 2 * 100 * resolution) (1 / 2 * 100 * resolution) 100 100 =
      some ⟨resolution, 1 / 2 * 100 * resolution, 1 / 2 * 100 * resolution, 100, 100⟩ := by
    simp [mkLimits, hr]
  obtain ⟨g0, e0⟩ : ∃ g0, Grid2D.create ⟨resolution, 1 / 2 * 100 * resolution, 1 / 2 * 100 * resolution, 100, 100⟩
      Verif.Prob.minCost Verif.Prob.maxCost = some g0 := by
    unfold Grid2D.create
    rw [if_pos (by norm_num [Verif.Prob.minCost, Verif.Prob.maxCost, minProbability, maxProbability])]
    exact ⟨_, rfl⟩
  obtain ⟨w0, -, u0, -, -⟩ := create_wf (l := ⟨resolution, 1 / 2 * 100 * resolution, 1 / 2 * 100 * resolution, 100, 100⟩)
    hr (by norm_num) (by norm_num) e0
  obtain ⟨m, g, e, w, hu, hs⟩ := processAll_spec hh hm free batches g0 [] w0 u0 (by simp)
  obtain ⟨im, d1, d2⟩ := draw_pictures w hu
  refine ⟨m, g, im, ?_, d2, ?_⟩
  · intro n hn
    simp only [gridImage, createProbabilityGrid, hl, Option.bind_eq_bind, Option.bind_some, e0, e n hn, d1]
  · intro b hb p hp
    have hp' := (hs p (List.mem_append_right _ (List.mem_flatMap.2 ⟨b, hb, hp⟩))).2
    obtain ⟨u, v, hu', hv', hi⟩ := d2.2.2.2.1 _ hp'
    refine ⟨u, v, hu', hv', ?_, by rw [← hi]; exact hp', ?_⟩
    · simp only [poseToPixel, hi, addIdx]
      apply Prod.ext <;> simp
    · rw [← hi]
      exact cell_near_center w.res p.1 p.2

/-- **C102**: a trajectory starts at its green and ends at its red marker, and there is one corner for each node. -/
theorem trajectory_drawn (pixel : ℚ × ℚ → Int × Int) (t : List (ℚ × ℚ)) :
    (t = [] → drawTrajectory pixel t = none) ∧
    (t ≠ [] → ∃ s, drawTrajectory pixel t = some s ∧ s.line = t.map pixel ∧ s.line.head? = some s.green ∧ s.line.getLast? = some s.red) := by
  cases t with
  | nil => simp [drawTrajectory]
  | cons p ps =>
    refine ⟨by simp, fun _ => ⟨_, rfl, rfl, rfl, ?_⟩⟩
    simp only [List.getLast?_map, List.getLast?_eq_getLast_of_ne_nil (List.cons_ne_nil p ps), Option.map_some]

example : drawTrajectory (fun p => (⌊p.1⌋, ⌊p.2⌋)) [(1, 2), (3, 4), (5, 6)] = some ⟨[(1, 2), (3, 4), (5, 6)], (1, 2), (5, 6)⟩ := by
  decide +kernel

/-! ### Colors of trajectories -/

theorem mod6_eq {x : ℚ} (k : Int) (h1 : 6 * (k : ℚ) ≤ x) (h2 : x < 6 * k + 6) : mod6 x = x - 6 * k := by
  have : ⌊x / 6⌋ = k := by
    rw [Int.floor_eq_iff]
    constructor
    · rw [le_div_iff₀ (by norm_num)]; linarith
    · rw [div_lt_iff₀ (by norm_num)]; linarith
  rw [mod6, this]

/-- **C102**: a full turn is the same color as no turn. -/
theorem hsv_full_turn (s v : ℚ) : hsvToRgb 1 s v = hsvToRgb 0 s v := by
  simp [hsvToRgb]

/-- **C102**: `HsvToRgb` agrees with the usual formula for every hue. -/
theorem hsv_formula {h s v : ℚ} (h0 : 0 ≤ h) (h1 : h < 1) :
    hsvToRgb h s v = (component h s v 5, component h s v 3, component h s v 1) := by
  have hne : h ≠ 1 := h1.ne
  have lo : 0 ≤ ⌊6 * h⌋ := Int.floor_nonneg.2 (by linarith)
  have hi : ⌊6 * h⌋ < 6 := Int.floor_lt.2 (by push_cast; linarith)
  have f1 := Int.floor_le (6 * h)
  have f2 := Int.lt_floor_add_one (6 * h)
  unfold hsvToRgb component
  simp only [hne, if_false]
  generalize hx : 6 * h = x at *
  generalize hk : ⌊x⌋ = k at *
  have c5 : ∀ a : ℚ, 0 ≤ a → a ≤ 1 → max 0 (min a (min (4 - a) 1)) = a := by
    intro a ha hb
    rw [min_eq_right (by linarith : (1 : ℚ) ≤ 4 - a), min_eq_left hb, max_eq_right ha]
  have cm : ∀ a : ℚ, 1 ≤ a → a ≤ 3 → max 0 (min a (min (4 - a) 1)) = 1 := by
    intro a ha hb
    rw [min_eq_right (by linarith : (1 : ℚ) ≤ 4 - a), min_eq_right ha, max_eq_right (by norm_num)]
  have cd : ∀ a : ℚ, 3 ≤ a → a ≤ 4 → max 0 (min a (min (4 - a) 1)) = 4 - a := by
    intro a ha hb
    rw [min_eq_left (by linarith : 4 - a ≤ 1), min_eq_right (by linarith), max_eq_right (by linarith)]
  have cz : ∀ a : ℚ, 4 ≤ a → max 0 (min a (min (4 - a) 1)) = 0 := by
    intro a ha
    rw [min_eq_left (by linarith : 4 - a ≤ 1), min_eq_right (by linarith), max_eq_left (by linarith)]
  interval_cases k <;> push_cast at f1 f2 <;> simp only [Int.reduceEq, reduceIte, Prod.mk.injEq] <;> push_cast
  · rw [mod6_eq (x := 5 + x) 0 (by push_cast; linarith) (by push_cast; linarith), mod6_eq (x := 3 + x) 0 (by push_cast; linarith) (by push_cast; linarith),
      mod6_eq (x := 1 + x) 0 (by push_cast; linarith) (by push_cast; linarith)]
    rw [cz _ (by push_cast; linarith), cd _ (by push_cast; linarith) (by push_cast; linarith), cm _ (by push_cast; linarith) (by push_cast; linarith)]
    push_cast
    refine ⟨?_, ?_, ?_⟩ <;> ring
  · rw [mod6_eq (x := 5 + x) 1 (by push_cast; linarith) (by push_cast; linarith), mod6_eq (x := 3 + x) 0 (by push_cast; linarith) (by push_cast; linarith),
      mod6_eq (x := 1 + x) 0 (by push_cast; linarith) (by push_cast; linarith)]
    rw [c5 _ (by push_cast; linarith) (by push_cast; linarith), cz _ (by push_cast; linarith), cm _ (by push_cast; linarith) (by push_cast; linarith)]
    push_cast
    refine ⟨?_, ?_, ?_⟩ <;> ring
  · rw [mod6_eq (x := 5 + x) 1 (by push_cast; linarith) (by push_cast; linarith), mod6_eq (x := 3 + x) 0 (by push_cast; linarith) (by push_cast; linarith),
      mod6_eq (x := 1 + x) 0 (by push_cast; linarith) (by push_cast; linarith)]
    rw [cm _ (by push_cast; linarith) (by push_cast; linarith), cz _ (by push_cast; linarith), cd _ (by push_cast; linarith) (by push_cast; linarith)]
    push_cast
    refine ⟨?_, ?_, ?_⟩ <;> ring
  · rw [mod6_eq (x := 5 + x) 1 (by push_cast; linarith) (by push_cast; linarith), mod6_eq (x := 3 + x) 1 (by push_cast; linarith) (by push_cast; linarith),
      mod6_eq (x := 1 + x) 0 (by push_cast; linarith) (by push_cast; linarith)]
    rw [cm _ (by push_cast; linarith) (by push_cast; linarith), c5 _ (by push_cast; linarith) (by push_cast; linarith), cz _ (by push_cast; linarith)]
    push_cast
    refine ⟨?_, ?_, ?_⟩ <;> ring
  · rw [mod6_eq (x := 5 + x) 1 (by push_cast; linarith) (by push_cast; linarith), mod6_eq (x := 3 + x) 1 (by push_cast; linarith) (by push_cast; linarith),
      mod6_eq (x := 1 + x) 0 (by push_cast; linarith) (by push_cast; linarith)]
    rw [cd _ (by push_cast; linarith) (by push_cast; linarith), cm _ (by push_cast; linarith) (by push_cast; linarith), cz _ (by push_cast; linarith)]
    push_cast
    refine ⟨?_, ?_, ?_⟩ <;> ring
  · rw [mod6_eq (x := 5 + x) 1 (by push_cast; linarith) (by push_cast; linarith), mod6_eq (x := 3 + x) 1 (by push_cast; linarith) (by push_cast; linarith),
      mod6_eq (x := 1 + x) 1 (by push_cast; linarith) (by push_cast; linarith)]
    rw [cz _ (by push_cast; linarith), cm _ (by push_cast; linarith) (by push_cast; linarith), c5 _ (by push_cast; linarith) (by push_cast; linarith)]
    push_cast
    refine ⟨?_, ?_, ?_⟩ <;> ring

theorem component_range {h s v n : ℚ} (hs : 0 ≤ s) (hv : 0 ≤ v) : v * (1 - s) ≤ component h s v n ∧ component h s v n ≤ v := by
  unfold component
  have a0 : 0 ≤ max 0 (min (mod6 (n + 6 * h)) (min (4 - mod6 (n + 6 * h)) 1)) := le_max_left _ _
  have a1 : max 0 (min (mod6 (n + 6 * h)) (min (4 - mod6 (n + 6 * h)) 1)) ≤ 1 :=
    max_le (by norm_num) ((min_le_right _ _).trans (min_le_right _ _))
  generalize max 0 (min (mod6 (n + 6 * h)) (min (4 - mod6 (n + 6 * h)) 1)) = a at *
  have hvs : 0 ≤ v * s := mul_nonneg hv hs
  constructor <;> nlinarith [mul_le_mul_of_nonneg_left a1 hvs, mul_nonneg hvs a0]

/-- **C102**: every trajectory number has a color, which is never the black of the fallback; numbers that follow each other have
hues that are at least 0.38 of a turn apart, in both directions. -/
theorem palette (id : Nat) : (∃ c, getColor id = some c ∧ c = (component (hue id) saturation value 5, component (hue id) saturation value 3,
      component (hue id) saturation value 1) ∧ 0.115 ≤ c.1 ∧ 0.115 ≤ c.2.1 ∧ 0.115 ≤ c.2.2 ∧ c.1 ≤ 0.77 ∧ c.2.1 ≤ 0.77 ∧ c.2.2 ≤ 0.77) ∧
    0 ≤ hue id ∧ hue id < 1 ∧ 0.38 ≤ |hue (id + 1) - hue id| ∧ |hue (id + 1) - hue id| ≤ 0.62 := by
  have r : ∀ n, 0 ≤ hue n ∧ hue n < 1 := fun n => ⟨Int.fract_nonneg _, Int.fract_lt_one _⟩
  refine ⟨⟨_, by simp [getColor], hsv_formula (r id).1 (r id).2, ?_⟩, (r id).1, (r id).2, ?_⟩
  · rw [hsv_formula (r id).1 (r id).2]
    have c : ∀ n, 0.115 ≤ component (hue id) saturation value n ∧ component (hue id) saturation value n ≤ 0.77 := by
      intro n
      have := component_range (h := hue id) (s := saturation) (v := value) (n := n) (by norm_num [saturation]) (by norm_num [value])
      constructor
      · refine le_trans ?_ this.1; norm_num [saturation, value]
      · refine this.2.trans ?_; norm_num [value]
    exact ⟨(c 5).1, (c 3).1, (c 1).1, (c 5).2, (c 3).2, (c 1).2⟩
  · obtain ⟨a0, a1⟩ := r id
    obtain ⟨b0, b1⟩ := r (id + 1)
    have e : ∃ z : Int, hue (id + 1) - hue id = goldenRatioConjugate + z := by
      refine ⟨⌊initialHue + goldenRatioConjugate * (id : ℚ)⌋ - ⌊initialHue + goldenRatioConjugate * ((id + 1 : Nat) : ℚ)⌋, ?_⟩
      simp only [hue, Int.fract]
      push_cast
      ring
    obtain ⟨z, e⟩ := e
    have g1 : goldenRatioConjugate = 0.6180339887498949 := rfl
    rw [g1] at e
    have z1 : (-2 : ℚ) < z := by norm_num at *; linarith
    have z2 : (z : ℚ) < 1 := by norm_num at *; linarith
    have z1' : -2 < z := by exact_mod_cast z1
    have z2' : z < 1 := by exact_mod_cast z2
    rw [e]
    interval_cases z
    · norm_num [abs_of_neg]
    · norm_num [abs_of_pos]

example : getColor 0 = some (hsvToRgb 0.69 0.85 0.77) ∧ getColor (-1) = none ∧
    (hsvToRgb 0.69 0.85 0.77).2.2 = 0.77 := by decide +kernel

end Verif.Img
