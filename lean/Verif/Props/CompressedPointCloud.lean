import Verif.CompressedPointCloud
import Verif.Props.HybridGrid

/-!
# Point cloud compression (C25)
-/

namespace Verif.Compressed

open Verif.Hybrid

/-! ## Spec -/

/-- A point rounded to the grid of one millimetre. -/
def snap (p : P3) : P3 := ⟨(rasterOf p).x / 1000, (rasterOf p).y / 1000, (rasterOf p).z / 1000⟩

/-- The supported points: the bounds check passes and rounding does not leave the range. -/
def Ok (p : P3) : Prop := inBounds p = true ∧ (rasterOf p).x < 2 ^ 23 ∧ (rasterOf p).y < 2 ^ 23 ∧ (rasterOf p).z < 2 ^ 23

theorem round_close (x : ℚ) : |(Prob.roundToInt x : ℚ) - x| ≤ 1 / 2 := by
  unfold Prob.roundToInt
  rw [abs_le]
  split
  · have h1 := Int.floor_le (x + 1 / 2)
    have h2 := Int.lt_floor_add_one (x + 1 / 2)
    constructor <;> linarith
  · have h1 := Int.le_ceil (x - 1 / 2)
    have h2 := Int.ceil_lt_add_one (x - 1 / 2)
    constructor <;> linarith

theorem round_bound {x : ℚ} (h : |x| < 2 ^ 23) : -(2 ^ 23) ≤ Prob.roundToInt x ∧ Prob.roundToInt x ≤ 2 ^ 23 := by
  have h1 := round_close x
  rw [abs_le] at h1
  rw [abs_lt] at h
  constructor
  · have : (-(2 ^ 23 : Int) - 1 : ℚ) < Prob.roundToInt x := by push_cast; linarith
    have : (-(2 ^ 23 : Int) - 1) < Prob.roundToInt x := by exact_mod_cast this
    omega
  · have : (Prob.roundToInt x : ℚ) < (2 ^ 23 : Int) + 1 := by push_cast; linarith
    have : Prob.roundToInt x < 2 ^ 23 + 1 := by exact_mod_cast this
    omega

theorem snap_close (p : P3) : |(snap p).x - p.x| ≤ 1 / 2000 ∧ |(snap p).y - p.y| ≤ 1 / 2000 ∧ |(snap p).z - p.z| ≤ 1 / 2000 := by
  have key : ∀ x : ℚ, |(Prob.roundToInt (x / (1 / 1000)) : ℚ) / 1000 - x| ≤ 1 / 2000 := by
    intro x
    have := round_close (x / (1 / 1000))
    rw [abs_le] at this ⊢
    constructor <;> linarith
  exact ⟨key _, key _, key _⟩

theorem raster_bound {p : P3} (h : inBounds p = true) : (-(2 ^ 23) ≤ (rasterOf p).x ∧ (rasterOf p).x ≤ 2 ^ 23) ∧
    (-(2 ^ 23) ≤ (rasterOf p).y ∧ (rasterOf p).y ≤ 2 ^ 23) ∧ (-(2 ^ 23) ≤ (rasterOf p).z ∧ (rasterOf p).z ≤ 2 ^ 23) := by
  unfold inBounds at h
  rw [decide_eq_true_iff] at h
  have key : ∀ x : ℚ, |x| ≤ max (max |p.x| |p.y|) |p.z| → |x / (1 / 1000)| < 2 ^ 23 := by
    intro x hx
    rw [abs_div, abs_of_pos (by norm_num : (0 : ℚ) < 1 / 1000)]
    linarith [div_le_div_of_nonneg_right hx (by norm_num : (0 : ℚ) ≤ 1 / 1000)]
  exact ⟨round_bound (key _ ((le_max_left _ _).trans (le_max_left _ _))),
    round_bound (key _ ((le_max_right _ _).trans (le_max_left _ _))), round_bound (key _ (le_max_right _ _))⟩

theorem block_valid {p : P3} (h : inBounds p = true) : Valid (blockOf (rasterOf p)) ↔
    (rasterOf p).x < 2 ^ 23 ∧ (rasterOf p).y < 2 ^ 23 ∧ (rasterOf p).z < 2 ^ 23 := by
  obtain ⟨h1, h2, h3⟩ := raster_bound h
  simp only [Valid, blockOf]
  omega

/-! ## Distributing the points -/

abbrev laws := baseLaws (List I3) []

/-- The contents of the blocks after distributing the points `ps`. -/
def blockPoints (ps : List P3) (b : I3) : List I3 :=
  (ps.filter fun p => blockOf (rasterOf p) = b).map fun p => maskOf (rasterOf p)

/-- The number of blocks is counted correctly. -/
def Counted (g : Blocks) (num : Int) : Prop :=
  ∃ K : List I3, K.Nodup ∧ (∀ b, b ∈ K ↔ dlook laws g b ≠ []) ∧ num = K.length

theorem distribute_spec (ps : List P3) : ∀ (done : List P3) (g : Blocks) (num : Int), (∀ p ∈ ps, Ok p) → DynWf laws g →
    (∀ b, dlook laws g b = blockPoints done b) → Counted g num →
    ∃ g' num', distribute ps g num = some (g', num') ∧ DynWf laws g' ∧ (∀ b, dlook laws g' b = blockPoints (done ++ ps) b) ∧
      Counted g' num' := by
  induction ps with
  | nil => intro done g num _ hw hl hc; exact ⟨g, num, rfl, hw, by simpa using hl, hc⟩
  | cons p ps ih =>
    intro done g num hok hw hl hc
    obtain ⟨hb, hx⟩ := hok p (by simp)
    have hs : Supported (base (List I3) []) (blockOf (rasterOf p)) := (supported_base _ _).2 ((block_valid hb).2 hx)
    obtain ⟨g1, e1, w1, l1⟩ := modify_spec laws hw hs id
    obtain ⟨g2, e2, w2, l2⟩ := modify_spec laws w1 hs (fun l => l ++ [maskOf (rasterOf p)])
    have ev := dyn_value laws w1 (blockOf (rasterOf p))
    have l1' : ∀ j, dlook laws g1 j = dlook laws g j := by
      intro j
      rw [l1]
      split
      · rename_i h; rw [h]; rfl
      · rfl
    have hl2 : ∀ b, dlook laws g2 b = blockPoints (done ++ [p]) b := by
      intro b
      rw [l2]
      unfold blockPoints
      rw [List.filter_append, List.map_append]
      split
      · rename_i h
        rw [l1', hl, h]
        simp [blockPoints]
      · rename_i h
        rw [l1', hl]
        have : ¬ blockOf (rasterOf p) = b := fun h' => h h'.symm
        simp [blockPoints, this]
    have hc2 : Counted g2 (num + if dlook laws g1 (blockOf (rasterOf p)) = [] then 1 else 0) := by
      obtain ⟨K, k1, k2, k3⟩ := hc
      rw [l1']
      by_cases h : dlook laws g (blockOf (rasterOf p)) = []
      · refine ⟨blockOf (rasterOf p) :: K, ?_, ?_, ?_⟩
        · rw [List.nodup_cons]
          exact ⟨fun h' => (k2 _).1 h' h, k1⟩
        · intro b
          rw [List.mem_cons, k2, l2, l1', l1']
          by_cases hb : b = blockOf (rasterOf p)
          · simp [hb]
          · simp [hb]
        · rw [if_pos h, k3]; simp
      · refine ⟨K, k1, ?_, ?_⟩
        · intro b
          rw [k2, l2, l1', l1']
          by_cases hb : b = blockOf (rasterOf p)
          · subst hb; simp [h]
          · simp [hb]
        · rw [if_neg h, k3]; simp
    obtain ⟨g', num', e3, w3, l3, c3⟩ := ih (done ++ [p]) g2 _ (fun q hq => hok q (by simp [hq])) w2 hl2 hc2
    refine ⟨g', num', ?_, w3, by simpa using l3, c3⟩
    unfold distribute
    simp only [hb, if_true, e1, Option.bind_eq_bind, Option.bind_some, ev, e2]
    exact e3

theorem distribute_none (ps : List P3) : ∀ (g : Blocks) (num : Int), DynWf laws g → (¬ ∀ p ∈ ps, Ok p) →
    distribute ps g num = none := by
  induction ps with
  | nil => intro g num _ h; exact absurd (by simp) h
  | cons p ps ih =>
    intro g num hw h
    unfold distribute
    by_cases hb : inBounds p = true
    · simp only [hb, if_true]
      by_cases hx : Valid (blockOf (rasterOf p))
      · have hs : Supported (base (List I3) []) (blockOf (rasterOf p)) := (supported_base _ _).2 hx
        obtain ⟨g1, e1, w1, l1⟩ := modify_spec laws hw hs id
        obtain ⟨g2, e2, w2, l2⟩ := modify_spec laws w1 hs (fun l => l ++ [maskOf (rasterOf p)])
        have ev := dyn_value laws w1 (blockOf (rasterOf p))
        simp only [e1, Option.bind_eq_bind, Option.bind_some, ev, e2]
        apply ih _ _ w2
        intro h'
        apply h
        intro q hq
        rcases List.mem_cons.1 hq with rfl | hq
        · exact ⟨hb, (block_valid hb).1 hx⟩
        · exact h' q hq
      · have : g.modify [] (blockOf (rasterOf p)) id = none :=
          modifyLoop_unsupported laws _ (mt (supported_base _ _).1 hx) _ _ _ hw
        simp [this]
    · simp [hb]

/-! ## Reading -/

/-- The state `s`, before the next point is read, has the points `out` left. -/
inductive Enc : It → List P3 → Prop
  | nil {s : It} (h : s.remaining = 0) : Enc s []
  | cons {s s' : It} {out : List P3} (hr : s.remaining = out.length + 1) (e : readNext s = some s')
      (h : Enc { s' with remaining := out.length } out) : Enc s (s'.cur :: out)

theorem readNext_remaining {s s' : It} (h : readNext s = some s') : s'.remaining = s.remaining := by
  unfold readNext at h
  cases hh : readHeader s with
  | none => simp [hh] at h
  | some s1 =>
    have h1 : s1.remaining = s.remaining := by
      unfold readHeader at hh
      split at hh
      · split at hh
        · simp only [Option.some.injEq] at hh; rw [← hh]
        · cases hh
      · simp only [Option.some.injEq] at hh; rw [← hh]
    rw [hh] at h
    simp only [Option.bind_eq_bind, Option.bind_some] at h
    split at h
    · simp only [Option.some.injEq] at h; rw [← h, ← h1]
    · cases h

/-- The first read, and every later one. -/
def prep (s : It) : Option It := if 0 < s.remaining then readNext s else some s

theorem decompress_enc {s : It} {out : List P3} (h : Enc s out) :
    (prep s).bind (decompressLoop out.length) = some out := by
  induction h with
  | nil h => simp [prep, h, decompressLoop]
  | @cons s s' out hr e h ih =>
    have hr' := readNext_remaining e
    have hp : prep s = some s' := by unfold prep; rw [if_pos (by omega)]; exact e
    rw [hp, Option.bind_some, List.length_cons]
    unfold decompressLoop
    rw [if_neg (by omega)]
    have hn : s'.next = prep { s' with remaining := out.length } := by
      unfold It.next prep
      have : s'.remaining - 1 = out.length := by omega
      simp only [this]
    rw [hn]
    cases hq : prep { s' with remaining := out.length } with
    | none => rw [hq] at ih; cases ih
    | some s2 =>
      rw [hq] at ih
      simp only [Option.bind_some] at ih
      simp only [Option.bind_eq_bind, Option.bind_some, ih]

/-- The point decoded from a code in a block. -/
def decoded (b r : I3) : P3 := ⟨((b.x * 1024 + r.x : Int) : ℚ) * (1 / 1000), ((b.y * 1024 + r.y : Int) : ℚ) * (1 / 1000), ((b.z * 1024 + r.z : Int) : ℚ) * (1 / 1000)⟩

def Small (r : I3) : Prop := 0 ≤ r.x ∧ r.x < 1024 ∧ 0 ≤ r.y ∧ r.y < 1024 ∧ 0 ≤ r.z ∧ r.z < 1024

theorem decode_code {r : I3} (h : Small r) : encodePoint r % 1024 = r.x ∧ encodePoint r / 1024 % 1024 = r.y ∧ encodePoint r / 1048576 = r.z := by
  obtain ⟨h1, h2, h3, h4, h5, h6⟩ := h
  unfold encodePoint
  omega

theorem enc_block {b : I3} (rs : List I3) (rest : List Int) (out : List P3) (hs : ∀ r ∈ rs, Small r)
    (hrest : ∀ blk cur, Enc ⟨out.length, 0, blk, rest, cur⟩ out) : ∀ cur,
    Enc ⟨rs.length + out.length, rs.length, ⟨b.x * 1024, b.y * 1024, b.z * 1024⟩, rs.map encodePoint ++ rest, cur⟩
      (rs.map (decoded b) ++ out) := by
  induction rs with
  | nil => intro cur; simpa using hrest ⟨b.x * 1024, b.y * 1024, b.z * 1024⟩ cur
  | cons r rs ih =>
    intro cur
    obtain ⟨d1, d2, d3⟩ := decode_code (hs r (by simp))
    have := ih (fun q hq => hs q (by simp [hq])) (decoded b r)
    have hne : ((rs.length + 1 : Nat) : Int) ≠ 0 := by omega
    refine Enc.cons (s' := ⟨(r :: rs).length + out.length, rs.length, ⟨b.x * 1024, b.y * 1024, b.z * 1024⟩,
      rs.map encodePoint ++ rest, decoded b r⟩) ?_ ?_ ?_
    · simp; omega
    · simp only [readNext, readHeader, List.length_cons, hne, if_false, Option.bind_eq_bind, Option.bind_some,
        List.map_cons, List.cons_append, d1, d2, d3, decoded]
      simp
    · simpa using this

theorem Enc.congr {s t : It} {out : List P3} (h : Enc s out) (hne : out ≠ []) (hr : t.remaining = s.remaining)
    (e : readNext t = readNext s) : Enc t out := by
  cases h with
  | nil => exact absurd rfl hne
  | cons h1 h2 h3 => exact .cons (hr.trans h1) (e.trans h2) h3

theorem enc_cloud (l : List (I3 × List I3)) : (∀ e ∈ l, e.2 ≠ []) → (∀ e ∈ l, ∀ r ∈ e.2, Small r) → ∀ blk cur,
    Enc ⟨(l.flatMap fun e => e.2.map (decoded e.1)).length, 0, blk, l.flatMap encodeBlock, cur⟩
      (l.flatMap fun e => e.2.map (decoded e.1)) := by
  induction l with
  | nil => intro _ _ blk cur; exact Enc.nil rfl
  | cons e l ih =>
    intro hne hs blk cur
    have ih' := ih (fun e he => hne e (by simp [he])) (fun e he => hs e (by simp [he]))
    obtain ⟨b, rs⟩ := e
    have hb := enc_block (b := b) rs _ _ (fun r hr => hs (b, rs) (by simp) r hr) ih'
    have hrs : rs ≠ [] := hne (b, rs) (by simp)
    obtain ⟨r, rs, rfl⟩ : ∃ r rs', rs = r :: rs' := List.exists_cons_of_ne_nil hrs
    -- reading the header does not change what follows
    have hb' := hb cur
    simp only [List.flatMap_cons]
    refine hb'.congr (by simp) (by simp; omega) ?_
    have hne : ((rs.length + 1 : Nat) : Int) ≠ 0 := by omega
    simp only [readNext, readHeader, encodeBlock, List.length_cons, hne, if_false, if_true, Option.bind_eq_bind,
      Option.bind_some, List.map_cons, List.cons_append]
    simp; omega

/-! ## The round trip -/

theorem perm_classes {α : Type} (f : α → I3) (K : List I3) : ∀ (L : List α), K.Nodup → (∀ a ∈ L, f a ∈ K) →
    (K.flatMap fun k => L.filter fun a => f a = k).Perm L := by
  induction K with
  | nil =>
    intro L _ h
    cases L with
    | nil => simp
    | cons a L => exact absurd (h a (by simp)) (by simp)
  | cons k K ih =>
    intro L hn h
    obtain ⟨hk, hn⟩ := List.nodup_cons.1 hn
    rw [List.flatMap_cons]
    have e : (K.flatMap fun k => L.filter fun a => f a = k) = K.flatMap fun k' => (L.filter fun a => ! decide (f a = k)).filter fun a => f a = k' := by
      apply List.flatMap_congr
      intro k' hk'
      rw [List.filter_filter]
      apply List.filter_congr
      intro a _
      have : k' ≠ k := by rintro rfl; exact hk hk'
      by_cases ha : f a = k'
      · simp [ha, this]
      · simp [ha]
    rw [e]
    have := ih (L.filter fun a => ! decide (f a = k)) hn (by
      intro a ha
      simp only [List.mem_filter, Bool.not_eq_true', decide_eq_false_iff_not] at ha
      rcases List.mem_cons.1 (h a ha.1) with h1 | h1
      · exact absurd h1 ha.2
      · exact h1)
    exact (List.Perm.append_left _ this).trans (List.filter_append_perm _ _)

theorem small_mask (r : I3) : Small (maskOf r) := by
  simp only [Small, maskOf]
  omega

theorem decoded_snap (p : P3) : decoded (blockOf (rasterOf p)) (maskOf (rasterOf p)) = snap p := by
  have key : ∀ x : Int, (((x / 1024 * 1024 + x % 1024 : Int) : ℚ)) * (1 / 1000) = (x : ℚ) / 1000 := by
    intro x
    rw [Int.ediv_mul_add_emod]
    ring
  simp only [decoded, blockOf, maskOf, snap, key]

/-- What a number must satisfy to be stored as `int32`. -/
def FitsInt32 (x : Int) : Prop := -(2 ^ 31) ≤ x ∧ x < 2 ^ 31

/-- C25: every supported point cloud can be compressed (the numbers fit into 32 bits), decompressing it never reads past the
end and yields the points rounded to the grid of one millimetre, in some order, each within half a millimetre of its
original, and the serialized form is read back unchanged. -/
theorem compression_roundtrip (points : List P3) (hn : points.length ≤ 2147483647) (hok : ∀ p ∈ points, Ok p) :
    ∃ c : Cloud, (∃ m, ∀ n, m ≤ n → compress n points = some c) ∧ c.num = points.length ∧
      (∃ out, c.decompress = some out ∧ out.Perm (points.map snap)) ∧
      (∀ p ∈ points, |(snap p).x - p.x| ≤ 1 / 2000 ∧ |(snap p).y - p.y| ≤ 1 / 2000 ∧ |(snap p).z - p.z| ≤ 1 / 2000) ∧
      (∀ x ∈ c.data, FitsInt32 x) ∧ Cloud.fromProto c.toProto = c := by
  obtain ⟨g, num, e1, w, hl, K, k1, k2, k3⟩ := distribute_spec points [] (Dyn.empty _) 0 hok (empty_wf laws)
    (fun b => by rw [empty_dlook]; rfl) ⟨[], by simp, fun b => by rw [empty_dlook]; simp, rfl⟩
  rw [List.nil_append] at hl
  obtain ⟨l, hc, hnd, hmem⟩ := dyn_collect laws w
  have hKl : K.length = l.length := by
    have : K.Perm (l.map Prod.fst) := by
      rw [List.perm_ext_iff_of_nodup k1 hnd]
      intro b
      rw [k2]
      constructor
      · intro h; exact List.mem_map.2 ⟨(b, dlook laws g b), (hmem _ _).2 ⟨rfl, h⟩, rfl⟩
      · intro h
        obtain ⟨⟨b', v⟩, h1, rfl⟩ := List.mem_map.1 h
        obtain ⟨rfl, h3⟩ := (hmem _ _).1 h1
        exact h3
    simpa using this.length_eq
  have hlook : ∀ e ∈ l, e.2 = blockPoints points e.1 ∧ e.2 ≠ [] := by
    intro e he
    obtain ⟨h1, h2⟩ := (hmem e.1 e.2).1 he
    exact ⟨by rw [← h1, hl], h2⟩
  have hlen : ∀ e ∈ l, e.2.length ≤ points.length := by
    intro e he
    rw [(hlook e he).1, blockPoints, List.length_map]
    exact List.length_filter_le _ _
  have hout : (l.flatMap fun e => e.2.map (decoded e.1)).Perm (points.map snap) := by
    have e : (l.flatMap fun e => e.2.map (decoded e.1)) =
        ((l.map Prod.fst).flatMap fun b => points.filter fun p => blockOf (rasterOf p) = b).map snap := by
      rw [List.map_flatMap, List.flatMap_map]
      apply List.flatMap_congr
      intro e he
      rw [(hlook e he).1, blockPoints, List.map_map]
      apply List.map_congr_left
      intro p hp
      simp only [List.mem_filter, decide_eq_true_eq] at hp
      rw [Function.comp_apply, ← hp.2, decoded_snap]
    rw [e]
    apply List.Perm.map
    apply perm_classes (fun p => blockOf (rasterOf p)) _ _ hnd
    intro p hp
    refine List.mem_map.2 ⟨(blockOf (rasterOf p), dlook laws g (blockOf (rasterOf p))), (hmem _ _).2 ⟨rfl, ?_⟩, rfl⟩
    rw [hl]
    intro h0
    have : maskOf (rasterOf p) ∈ blockPoints points (blockOf (rasterOf p)) :=
      List.mem_map.2 ⟨p, List.mem_filter.2 ⟨hp, by simp⟩, rfl⟩
    rw [h0] at this
    simp at this
  refine ⟨⟨l.flatMap encodeBlock, points.length⟩, ⟨l.length, ?_⟩, rfl, ⟨_, ?_, hout⟩, fun p _ => snap_close p, ?_, ?_⟩
  · intro n hn'
    unfold compress
    have h1 : (l.all fun e => decide (e.2.length ≤ 2147483647)) = true := by
      rw [List.all_eq_true]
      intro e he
      simpa using (hlen e he).trans hn
    have h2 : num - (l.length : Int) = 0 := by omega
    rw [if_pos hn]
    simp only [e1, Option.bind_eq_bind, Option.bind_some, hc n hn', h1, h2]
    simp
  · have henc := enc_cloud l (fun e he => (hlook e he).2) (fun e he r hr => by
      rw [(hlook e he).1] at hr
      obtain ⟨p, -, rfl⟩ := List.mem_map.1 hr
      exact small_mask _) ⟨0, 0, 0⟩ ⟨0, 0, 0⟩
    have hlen' : (l.flatMap fun e => e.2.map (decoded e.1)).length = points.length := by
      rw [hout.length_eq, List.length_map]
    have := decompress_enc henc
    rw [hlen'] at this
    exact this
  · intro x hx
    simp only at hx
    obtain ⟨e, he, hx⟩ := List.mem_flatMap.1 hx
    have hsup : Valid e.1 := by
      have := (hmem e.1 e.2).1 he
      exact (supported_base _ _).1 (dlook_ne_supported laws w (by rw [this.1]; exact this.2))
    unfold Valid at hsup
    have := hlen e he
    simp only [encodeBlock, List.mem_cons, List.mem_map] at hx
    unfold FitsInt32
    rcases hx with rfl | rfl | rfl | rfl | ⟨r, hr, rfl⟩
    · omega
    · omega
    · omega
    · omega
    · rw [(hlook e he).1] at hr
      obtain ⟨p, -, rfl⟩ := List.mem_map.1 hr
      have := small_mask (rasterOf p)
      unfold Small at this
      unfold encodePoint
      omega
  · have : ∀ (l acc : List Int), l.foldl (fun l d => l ++ [d]) acc = acc ++ l := by
      intro l
      induction l with
      | nil => simp
      | cons a l ih => intro acc; simp [ih]
    simp [Cloud.fromProto, Cloud.toProto, this]

/-- Outside of the supported range compressing aborts. -/
theorem compression_aborts (points : List P3) (h : ¬ ∀ p ∈ points, Ok p) (n : Nat) : compress n points = none := by
  unfold compress
  rw [distribute_none points _ _ (empty_wf laws) h]
  simp

/-- The bounds check of the constructor is not sufficient: a point which passes it but is rounded to 2^23 aborts in the
hybrid grid (in exact arithmetic). -/
theorem bounds_check_insufficient : inBounds ⟨83886079 / 10000, 0, 0⟩ = true ∧ ∀ n, compress n [⟨83886079 / 10000, 0, 0⟩] = none := by
  have hb : inBounds ⟨83886079 / 10000, 0, 0⟩ = true := by
    unfold inBounds
    rw [decide_eq_true_iff]
    norm_num
  refine ⟨hb, compression_aborts _ ?_⟩
  intro h
  have := (h ⟨83886079 / 10000, 0, 0⟩ (by simp)).2.1
  simp only [rasterOf, Prob.roundToInt] at this
  norm_num at this

/-- Non-vacuity: two points in different blocks and one sharing a block. -/
example : Ok ⟨1 / 3, -2, 5000⟩ ∧ snap ⟨1 / 3, -2, 5000⟩ = ⟨333 / 1000, -2, 5000⟩ := by
  refine ⟨⟨by unfold inBounds; rw [decide_eq_true_iff]; norm_num, ?_⟩, ?_⟩
  · simp only [rasterOf, Prob.roundToInt]; norm_num
  · simp only [snap, rasterOf, Prob.roundToInt]; norm_num

/-- Non-vacuity of the reader on concrete data: one block with two points. -/
example : (Cloud.mk [2, 0, -1, 1, 1048576 + 3, 5] 2).decompress = some [⟨3 / 1000, -1024 / 1000, 1025 / 1000⟩, ⟨5 / 1000, -1024 / 1000, 1024 / 1000⟩] := by
  simp only [Cloud.decompress, Cloud.start, decompressLoop, It.next, readNext, readHeader]
  norm_num

end Verif.Compressed
