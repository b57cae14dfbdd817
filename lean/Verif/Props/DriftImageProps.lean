import Verif.Props.DriftProps
import Verif.Props.ColourProps
import Verif.Spec.DriftSpec

/-! C89 for channels and whole pictures. -/
namespace Sia
open FloatOps LawfulFloat Finset

variable {F : Type} [FloatOps F] [LawfulFloat F]

omit [LawfulFloat F] in
/-- The channels of a picture that is marked again and again are marked again and again. -/
theorem remarked_planes (image out : DynamicImage) (depth : F) (hg : GreyPixels image)
    (h : Relation.ReflTransGen (fun a b => ∃ (D : Deps F) (step : F) (amount : Nat), watermark D a depth step amount = .ok b) image out)
    (s : Rgba → UInt8) (hs : s ∈ [Rgba.r, Rgba.g, Rgba.b]) :
    GreyPixels out ∧ out.width = image.width ∧ out.height = image.height ∧
    Relation.ReflTransGen (fun a b => ∃ (D : Deps F) (step : F) (amount : Nat), watermarkChannel D a depth step amount 3 = .ok b)
      (image.plane s) (out.plane s) := by
  induction h with
  | refl => exact ⟨hg, rfl, rfl, .refl⟩
  | tail _ hstep ih =>
    rename_i b c _
    obtain ⟨hb, w1, w2, ih⟩ := ih
    obtain ⟨D, step, amount, he⟩ := hstep
    obtain ⟨k1, k2, k3, _⟩ := watermark_keeps_shape_and_alpha D b c depth step amount he
    obtain ⟨red, _, e2, e3, _⟩ := watermark_channels D b c depth step amount he
    refine ⟨?_, k1.trans w1, k2.trans w2, ih.tail ⟨D, step, amount, ?_⟩⟩
    · intro hc x _ y _
      have hbc : b.color.hasColor = false := by
        rw [k3] at hc
        revert hc
        cases b.color <;> decide
      rw [(e3 hbc x y).1, (e3 hbc x y).2, e2]
      exact ⟨rfl, rfl⟩
    · obtain ⟨m, m1, m2⟩ := watermark_colour_planes D b c depth step amount hb he s hs
      obtain ⟨a1, a2, a3⟩ := watermarkChannel_out D _ m depth step amount 3 m1
      rw [plane_of_sample c s m (by rw [a1, k1]; rfl) (by rw [a2, k2]; rfl) a3 m2]
      exact m1

omit [LawfulFloat F] in
/-- Marking a channel is embedding a record into its pixels. -/
theorem remarked_pixels (n levels : Nat) (c out : GrayImage) (depth : F) (hc : c.IsSquare n)
    (h : Relation.ReflTransGen (fun a b => ∃ (D : Deps F) (step : F) (amount : Nat), watermarkChannel D a depth step amount levels = .ok b) c out) :
    out.IsSquare n ∧ Relation.ReflTransGen (fun a b => ∃ (L : Ldpc) (payload : List UInt8) (r : Mat UInt8),
      embed L a payload depth levels = .ok r ∧ b.rows = r.rows ∧ b.cols = r.cols ∧ ∀ x < r.rows, ∀ y < r.cols, b.get x y = r.get x y)
      c.pixels out.pixels := by
  induction h with
  | refl => exact ⟨hc, .refl⟩
  | tail _ hstep ih =>
    rename_i a b _
    obtain ⟨ha, ih⟩ := ih
    obtain ⟨D, step, amount, he⟩ := hstep
    obtain ⟨_, _, _, _, _, fs, q, p', record, m, _, _, _, _, hm, hraw⟩ := watermarkChannel_ok_only D a b depth step amount levels he
    obtain ⟨hm1, hm2⟩ := embed_shape D.ldpc a.pixels m record depth levels hm
    have hmsq : m.IsSquare n := ⟨by rw [hm1]; exact ha.1, by rw [hm2]; exact ha.2.1⟩
    obtain ⟨r1, r2, r3⟩ := fromRaw_toList m n hmsq
    have hb : b = ⟨n, n, m.toList⟩ := by
      rw [ha.1, ha.2.1, r1] at hraw
      exact (Except.ok.inj hraw).symm
    refine ⟨hb ▸ r2, ih.tail ⟨D.ldpc, record, m, hm, ?_, ?_, ?_⟩⟩
    · rw [hb]; exact hmsq.1.symm
    · rw [hb]; exact hmsq.2.symm
    · rw [hmsq.1, hmsq.2, hb]
      exact r3

/-- The channels of a picture that is marked again and again, block by block. -/
theorem remarking_channel (n levels : Nat) (c out : GrayImage) (depth : F) (hn : 0 < n) (hc : c.IsSquare n)
    (hd : GoodDepth depth) (hd1 : 1 ≤ val depth) (hs : embedSlack F levels * val depth < 2 ^ levels / 2)
    (hdepth : 2 ^ levels / 2 < (1 / 4 - embedSlack F levels) * val depth)
    (i j : Nat) (hi : i < n) (hj : j < n)
    (hroom : ∀ x < n, ∀ y < n, x / 2 ^ levels = i / 2 ^ levels → y / 2 ^ levels = j / 2 ^ levels →
      (3 / 4 + embedSlack F levels) * val depth / 2 ^ levels ≤ ((c.pixels.get x y).toNat : ℝ) ∧
      ((c.pixels.get x y).toNat : ℝ) ≤ 255 - (3 / 4 + embedSlack F levels) * val depth / 2 ^ levels)
    (htie : u F = 0 ∨ ∀ (k m : ℤ) (bit : Bool), |(k : ℝ) - blockValue levels c.pixels i j / val depth| ≤ 1 / 2 + embedSlack F levels →
      embedSlack F levels * val depth / 2 ^ levels <
        |(val depth * (k + signedQuarter bit) - blockValue levels c.pixels i j) / 2 ^ levels - (m + 1 / 2)|)
    (h : Relation.ReflTransGen (fun a b => ∃ (D : Deps F) (step : F) (amount : Nat), watermarkChannel D a depth step amount levels = .ok b) c out) :
    out.IsSquare n ∧ ∃ m : ℤ, |(m : ℝ)| ≤ (3 / 4 + embedSlack F levels) * val depth / 2 ^ levels + 1 / 2 ∧
      ∀ x < n, ∀ y < n, x / 2 ^ levels = i / 2 ^ levels → y / 2 ^ levels = j / 2 ^ levels →
        ((out.pixels.get x y).toNat : ℤ) = (c.pixels.get x y).toNat + m := by
  obtain ⟨h1, h2⟩ := remarked_pixels n levels c out depth hc h
  exact ⟨h1, remarking_core n levels c.pixels out.pixels depth hn ⟨hc.1, hc.2.1⟩ hd hd1 hs hdepth i j hi hj hroom htie h2⟩

omit [FloatOps F] [LawfulFloat F] in
theorem blockValue_plane (image : DynamicImage) (n : Nat) (hw : image.width = n) (hh : image.height = n) (h8 : 8 ∣ n) (s : Rgba → UInt8)
    (x y : Nat) (hx : x < n) (hy : y < n) : blockValue 3 (image.plane s).pixels y x = (sampleSum image s x y : ℝ) / 8 := by
  unfold blockValue sampleSum
  have h2 : (2 : ℝ) ^ 3 = 8 := by norm_num
  have h2' : 2 ^ 3 = 8 := by norm_num
  rw [h2, h2']
  congr 1
  push_cast
  refine sum_congr rfl fun a ha => sum_congr rfl fun b hb => ?_
  have ha := mem_range.mp ha
  have hb := mem_range.mp hb
  have e1 : y / 8 * 8 + a < n := by omega
  have e2 : x / 8 * 8 + b < n := by omega
  rw [← sample_pixels _ n _ _ (plane_isSquare image n hw hh s), plane_sample image s _ _ (by omega) (by omega)]

omit [LawfulFloat F] in
/-- A picture marked at least once has sides that are multiples of 8. -/
theorem remarked_cases (n : Nat) (c out : GrayImage) (depth : F) (hn : 0 < n) (hc : c.IsSquare n)
    (h : Relation.ReflTransGen (fun a b => ∃ (D : Deps F) (step : F) (amount : Nat), watermarkChannel D a depth step amount 3 = .ok b) c out) :
    out = c ∨ 8 ∣ n := by
  rcases Relation.ReflTransGen.cases_head h with h | ⟨b, ⟨D, step, amount, he⟩, _⟩
  · exact Or.inl h.symm
  · right
    obtain ⟨_, _, _, _, _, fs, q, p', record, m, _, _, _, _, hm, _⟩ := watermarkChannel_ok_only D c b depth step amount 3 he
    have := (embed_ok_only D.ldpc c.pixels m record depth 3 (by show 0 < c.width; rw [hc.1]; exact hn)
      (by show 0 < c.height; rw [hc.2.1]; exact hn) hm).2.2.1
    have e : c.pixels.rows = n := hc.1
    rw [e] at this
    simpa using this

/-- `remarking_channel` for a plane of a picture. -/
theorem remarking_plane (n : Nat) (image : DynamicImage) (out : GrayImage) (depth : F) (hn : 0 < n) (hw : image.width = n)
    (hh : image.height = n) (hd : GoodDepth depth) (hd1 : 1 ≤ val depth) (hs : embedSlack F 3 * val depth < 4)
    (hdepth : 4 < (1 / 4 - embedSlack F 3) * val depth) (s : Rgba → UInt8)
    (x y : Nat) (hx : x < n) (hy : y < n)
    (hroom : ∀ x' < n, ∀ y' < n, SameBlock x y x' y' → (3 / 4 + embedSlack F 3) * val depth / 8 ≤ ((s (image.pixel x' y')).toNat : ℝ) ∧
      ((s (image.pixel x' y')).toNat : ℝ) ≤ 255 - (3 / 4 + embedSlack F 3) * val depth / 8)
    (htie : u F = 0 ∨ ∀ (k m : ℤ) (bit : Bool), embedSlack F 3 * val depth / 8 <
        |(val depth * (k + signedQuarter bit) - (sampleSum image s x y : ℝ) / 8) / 8 - (m + 1 / 2)|)
    (hch : Relation.ReflTransGen (fun a b => ∃ (D : Deps F) (step : F) (amount : Nat), watermarkChannel D a depth step amount 3 = .ok b)
      (image.plane s) out) :
    ∃ m : ℤ, |(m : ℝ)| ≤ (3 / 4 + embedSlack F 3) * val depth / 8 + 1 / 2 ∧
      ∀ x' < n, ∀ y' < n, SameBlock x y x' y' → ((out.pixels.get y' x').toNat : ℤ) = (s (image.pixel x' y')).toNat + m := by
  have hsq := plane_isSquare image n hw hh s
  have hpi : ∀ x < n, ∀ y < n, (image.plane s).pixels.get y x = s (image.pixel x y) := fun x hx y hy => by
    rw [← sample_pixels _ n _ _ hsq, plane_sample image s _ _ (by omega) (by omega)]
  have h2 : (2 : ℝ) ^ 3 = 8 := by norm_num
  have h2' : 2 ^ 3 = 8 := by norm_num
  rcases remarked_cases n _ _ depth hn hsq hch with heq | h8
  · have hR : 0 ≤ (3 / 4 + embedSlack F 3) * val depth / 8 :=
      div_nonneg (mul_nonneg (by linarith [embedSlack_nonneg (F := F) 3]) hd.pos.le) (by norm_num)
    refine ⟨0, by rw [Int.cast_zero, abs_zero]; linarith, fun x' hx' y' hy' _ => ?_⟩
    rw [← hpi x' hx' y' hy', heq, add_zero]
  · obtain ⟨_, m, hm, hall⟩ := remarking_channel n 3 (image.plane s) out depth hn hsq hd hd1 (by rw [h2]; linarith)
      (by rw [h2]; linarith) y x hy hx
      (by
        rw [h2, h2']
        intro y' hy' x' hx' e1 e2
        rw [hpi x' hx' y' hy']
        exact hroom x' hx' y' hy' ⟨e2, e1⟩)
      (by
        refine htie.imp_right fun ht k m bit _ => ?_
        rw [blockValue_plane image n hw hh h8 s x y hx hy, h2]
        exact ht k m bit) hch
    rw [h2] at hm
    rw [h2'] at hall
    refine ⟨m, hm, fun x' hx' y' hy' hb => ?_⟩
    rw [← hpi x' hx' y' hy']
    exact hall y' hy' x' hx' hb.2 hb.1

/-- From channels to pictures. -/
theorem remarking_image (n : Nat) (image out : DynamicImage) (depth : F) (hn : 0 < n) (hw : image.width = n) (hh : image.height = n)
    (hg : GreyPixels image) (hd : GoodDepth depth) (hd1 : 1 ≤ val depth) (hs : embedSlack F 3 * val depth < 4)
    (hdepth : 4 < (1 / 4 - embedSlack F 3) * val depth) (s : Rgba → UInt8) (hsr : s ∈ [Rgba.r, Rgba.g, Rgba.b])
    (x y : Nat) (hx : x < n) (hy : y < n)
    (hroom : ∀ x' < n, ∀ y' < n, SameBlock x y x' y' → (3 / 4 + embedSlack F 3) * val depth / 8 ≤ ((s (image.pixel x' y')).toNat : ℝ) ∧
      ((s (image.pixel x' y')).toNat : ℝ) ≤ 255 - (3 / 4 + embedSlack F 3) * val depth / 8)
    (htie : u F = 0 ∨ ∀ (k m : ℤ) (bit : Bool), embedSlack F 3 * val depth / 8 <
        |(val depth * (k + signedQuarter bit) - (sampleSum image s x y : ℝ) / 8) / 8 - (m + 1 / 2)|)
    (h : Relation.ReflTransGen (fun a b => ∃ (D : Deps F) (step : F) (amount : Nat), watermark D a depth step amount = .ok b) image out) :
    ∃ m : ℤ, |(m : ℝ)| ≤ (3 / 4 + embedSlack F 3) * val depth / 8 + 1 / 2 ∧
      ∀ x' < n, ∀ y' < n, SameBlock x y x' y' → ((s (out.pixel x' y')).toNat : ℤ) = (s (image.pixel x' y')).toNat + m := by
  obtain ⟨_, w1, w2, hch⟩ := remarked_planes image out depth hg h s hsr
  have hsq' := plane_isSquare out n (w1.trans hw) (w2.trans hh) s
  obtain ⟨m, m1, m2⟩ := remarking_plane n image (out.plane s) depth hn hw hh hd hd1 hs hdepth s x y hx hy hroom htie hch
  refine ⟨m, m1, fun x' hx' y' hy' hb => ?_⟩
  rw [← m2 x' hx' y' hy' hb, ← sample_pixels _ n _ _ hsq', plane_sample out s _ _ (by omega) (by omega)]

/-- C89 in exact arithmetic: a square picture that is marked again and again, with whatever libraries, steps and amounts of features, but the
same depth above 16, never moves further from the original than by `3/32` of the depth and a half, and each block moves as a whole, as
long as the block keeps that distance from black and white. -/
theorem remarking_exact (n : Nat) (image out : DynamicImage) (depth : ℝ) (hn : 0 < n) (hw : image.width = n) (hh : image.height = n)
    (hg : GreyPixels image) (h16 : 16 < depth) (hmax : depth ≤ 2 ^ 100) (s : Rgba → UInt8) (hsr : s ∈ [Rgba.r, Rgba.g, Rgba.b])
    (x y : Nat) (hx : x < n) (hy : y < n)
    (hroom : ∀ x' < n, ∀ y' < n, SameBlock x y x' y' → 3 / 32 * depth ≤ ((s (image.pixel x' y')).toNat : ℝ) ∧
      ((s (image.pixel x' y')).toNat : ℝ) ≤ 255 - 3 / 32 * depth)
    (h : Relation.ReflTransGen (fun a b => ∃ (D : Deps ℝ) (step : ℝ) (amount : Nat), watermark D a depth step amount = .ok b) image out) :
    ∃ m : ℤ, |(m : ℝ)| ≤ 3 / 32 * depth + 1 / 2 ∧
      ∀ x' < n, ∀ y' < n, SameBlock x y x' y' → ((s (out.pixel x' y')).toNat : ℤ) = (s (image.pixel x' y')).toNat + m := by
  have hu : u ℝ = 0 := rfl
  have hv : val depth = depth := rfl
  have hsl : embedSlack ℝ 3 = 0 := by unfold embedSlack; rw [hu, zero_mul]
  have key := remarking_image n image out depth hn hw hh hg ⟨trivial, by rw [hv]; refine le_trans ?_ h16.le; norm_num, by rw [hv]; exact hmax⟩
    (by rw [hv]; linarith) (by rw [hsl]; norm_num) (by rw [hsl, hv]; linarith) s hsr x y hx hy
    (by
      rw [hsl, hv]
      intro x' hx' y' hy' hb
      obtain ⟨r1, r2⟩ := hroom x' hx' y' hy' hb
      constructor <;> linarith) (Or.inl hu) h
  obtain ⟨m, m1, m2⟩ := key
  refine ⟨m, ?_, m2⟩
  rw [hsl, hv] at m1
  linarith

/-- C89 in double precision with the depth of the tool: a picture that is marked again and again, with whatever libraries, steps and amounts
of features, is never moved by more than 9 levels in a block of 8 x 8 pixels whose samples are between 10 and 245 and
whose sum leaves no remainder 8 when divided by 16; the block moves as a whole. -/
theorem remarking_tool (n : Nat) (image out : DynamicImage) (hn : 0 < n) (hw : image.width = n) (hh : image.height = n)
    (hg : GreyPixels image) (s : Rgba → UInt8) (hsr : s ∈ [Rgba.r, Rgba.g, Rgba.b]) (x y : Nat) (hx : x < n) (hy : y < n)
    (hroom : ∀ x' < n, ∀ y' < n, SameBlock x y x' y' → 10 ≤ (s (image.pixel x' y')).toNat ∧ (s (image.pixel x' y')).toNat ≤ 245)
    (hsum : sampleSum image s x y % 16 ≠ 8)
    (h : Relation.ReflTransGen (fun a b => ∃ (D : Deps F64) (step : F64) (amount : Nat), watermark D a (.fin 100) step amount = .ok b)
      image out) :
    ∃ m : ℤ, |m| ≤ 9 ∧
      ∀ x' < n, ∀ y' < n, SameBlock x y x' y' → ((s (out.pixel x' y')).toNat : ℤ) = (s (image.pixel x' y')).toNat + m := by
  have hv : val (F64.fin 100) = 100 := by
    show (((100 : ℚ) : ℝ)) = 100
    norm_num
  have depth100 : GoodDepth (F64.fin 100) := ⟨trivial, by rw [hv]; norm_num, by rw [hv]; norm_num⟩
  have hsl := embedSlack_double 3 le_rfl
  have hsl0 := embedSlack_nonneg (F := F64) 3
  have key := remarking_image n image out (F64.fin 100) hn hw hh hg depth100 (by rw [hv]; norm_num)
    (by rw [hv]; linarith) (by rw [hv]; linarith) s hsr x y hx hy
    (by
      rw [hv]
      intro x' hx' y' hy' hb
      obtain ⟨r1, r2⟩ := hroom x' hx' y' hy' hb
      have r1' : (10 : ℝ) ≤ ((s (image.pixel x' y')).toNat : ℝ) := by exact_mod_cast r1
      have r2' : ((s (image.pixel x' y')).toNat : ℝ) ≤ 245 := by exact_mod_cast r2
      constructor <;> linarith)
    (Or.inr (by
      intro k m bit
      rw [hv]
      set N := sampleSum image s x y with hN
      have hint : ∃ z : ℤ, z ≠ 0 ∧ (100 * ((k : ℝ) + signedQuarter bit) - (N : ℝ) / 8) / 8 - (m + 1 / 2) = (z : ℝ) / 64 := by
        unfold signedQuarter
        cases bit
        · refine ⟨200 * (4 * k - 1) - (N : ℤ) - 64 * m - 32, by omega, ?_⟩
          rw [if_neg (by decide)]
          push_cast
          ring
        · refine ⟨200 * (4 * k + 1) - (N : ℤ) - 64 * m - 32, by omega, ?_⟩
          rw [if_pos rfl]
          push_cast
          ring
      obtain ⟨z, hz, hzz⟩ := hint
      rw [hzz, abs_div, abs_of_pos (by norm_num : (0 : ℝ) < 64)]
      have : (1 : ℝ) ≤ |(z : ℝ)| := by exact_mod_cast Int.one_le_abs hz
      linarith)) h
  obtain ⟨m, m1, m2⟩ := key
  refine ⟨m, ?_, m2⟩
  rw [hv] at m1
  have : |(m : ℝ)| < 10 := by linarith
  have : |m| < 10 := by exact_mod_cast this
  omega

end Sia
