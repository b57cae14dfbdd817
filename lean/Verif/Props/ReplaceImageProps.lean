import Verif.Props.ReplaceProps
import Verif.Props.DriftExamples
import Verif.Props.MachineProps

/-! C90 for channels and whole pictures: the last marking wins. -/
namespace Sia
open FloatOps LawfulFloat Finset

variable {F : Type} [FloatOps F] [LawfulFloat F]

omit [LawfulFloat F] in
/-- Marking a channel is embedding a record of one size into its pixels. -/
theorem remarked_records (n levels a : Nat) (c out : GrayImage) (depth : F) (hc : c.IsSquare n)
    (h : Relation.ReflTransGen (fun x y => ∃ (D : Deps F) (step : F), watermarkChannel D x depth step a levels = .ok y) c out) :
    out.IsSquare n ∧ Relation.ReflTransGen (fun x y => ∃ (L : Ldpc) (payload : List UInt8) (r : Mat UInt8),
      embed L x payload depth levels = .ok r ∧ encodedLength (domainBytes n levels) payload.length =
        encodedLength (domainBytes n levels) (recordBytes a) ∧
      y.rows = r.rows ∧ y.cols = r.cols ∧ ∀ i < r.rows, ∀ j < r.cols, y.get i j = r.get i j) c.pixels out.pixels := by
  induction h with
  | refl => exact ⟨hc, .refl⟩
  | tail _ hstep ih =>
    rename_i x y _
    obtain ⟨hx, ih⟩ := ih
    obtain ⟨D, step, he⟩ := hstep
    obtain ⟨_, _, _, _, _, fs, q, p', record, m, _, _, _, hl, hm, hraw⟩ := watermarkChannel_ok_only D x y depth step a levels he
    obtain ⟨hm1, hm2⟩ := embed_shape D.ldpc x.pixels m record depth levels hm
    have hmsq : m.IsSquare n := ⟨by rw [hm1]; exact hx.1, by rw [hm2]; exact hx.2.1⟩
    obtain ⟨r1, r2, r3⟩ := fromRaw_toList m n hmsq
    have hb : y = ⟨n, n, m.toList⟩ := by
      rw [hx.1, hx.2.1, r1] at hraw
      exact (Except.ok.inj hraw).symm
    refine ⟨hb ▸ r2, ih.tail ⟨D.ldpc, record, m, hm, by rw [hl], ?_, ?_, ?_⟩⟩
    · rw [hb]; exact hmsq.1.symm
    · rw [hb]; exact hmsq.2.symm
    · rw [hmsq.1, hmsq.2, hb]
      exact r3

/-- C90: a channel that is marked again and again (with whatever libraries and steps, but the same depth, levels and amount of features) has,
in each block that meets the hypotheses of `embed_replaces`, the pixels of the original channel with the record of the last marking
embedded: nothing is left of the earlier marks. The record is the one of the picture that was marked last. -/
theorem last_marking (n levels a : Nat) (D : Deps F) (c before out : GrayImage) (depth step : F) (hn : 0 < n) (hc : c.IsSquare n)
    (hd : GoodDepth depth) (hd1 : 1 ≤ val depth) (hs : embedSlack F levels * val depth < 2 ^ levels / 2)
    (hdepth : 2 ^ levels / 2 < (1 / 4 - embedSlack F levels) * val depth)
    (h : Relation.ReflTransGen (fun x y => ∃ (D : Deps F) (step : F), watermarkChannel D x depth step a levels = .ok y) c before)
    (hlast : watermarkChannel D before depth step a levels = .ok out) :
    ∃ fs q p record direct, equalizedFeatures D before a = .ok fs ∧ threeBitQuantization fs step = .ok (q, p) ∧
      (Watermark.mk p (D.ed.sign (builtinSecret ++ builtinPublic) (vecI64ToBytes q)) watermarkText).serialize = .ok record ∧
      embed D.ldpc c.pixels record depth levels = .ok direct ∧ ∀ i < n, ∀ j < n,
        (∀ x < n, ∀ y < n, x / 2 ^ levels = i / 2 ^ levels → y / 2 ^ levels = j / 2 ^ levels →
          (3 / 4 + embedSlack F levels) * val depth / 2 ^ levels ≤ ((c.pixels.get x y).toNat : ℝ) ∧
          ((c.pixels.get x y).toNat : ℝ) ≤ 255 - (3 / 4 + embedSlack F levels) * val depth / 2 ^ levels) →
        (u F = 0 ∨ ∀ (k m : ℤ) (bit : Bool), embedSlack F levels * val depth / 2 ^ levels <
          |(val depth * (k + signedQuarter bit) - blockValue levels c.pixels i j) / 2 ^ levels - (m + 1 / 2)|) →
        out.pixels.get i j = direct.get i j := by
  obtain ⟨hbsq, hchain⟩ := remarked_records n levels a c before depth hc h
  obtain ⟨_, _, _, _, _, fs, q, p, record, m, e1, e2, e3, hl, hm, hraw⟩ := watermarkChannel_ok_only D before out depth step a levels hlast
  obtain ⟨hm1, hm2⟩ := embed_shape D.ldpc before.pixels m record depth levels hm
  have hmsq : m.IsSquare n := ⟨by rw [hm1]; exact hbsq.1, by rw [hm2]; exact hbsq.2.1⟩
  obtain ⟨direct, f1, f2, f3⟩ := embed_many n levels _ c.pixels depth hn ⟨hc.1, hc.2.1⟩ hd hd1 hs hdepth D.ldpc record
    before.pixels m hchain (by rw [hl]) hm
  refine ⟨fs, q, p, record, direct, e1, e2, e3, f1, fun i hi j hj hroom htie => ?_⟩
  obtain ⟨r1, r2, r3⟩ := fromRaw_toList m n hmsq
  rw [hbsq.1, hbsq.2.1, r1] at hraw
  rw [f3 i hi j hj hroom htie, ← r3 i hi j hj, ← Except.ok.inj hraw]

/-- C90: if the features of a channel that was marked before have the cells and bits of the original's features, marking it gives, in each
such block, exactly what marking the original gives. -/
theorem marking_again (n levels a : Nat) (D : Deps F) (c before : GrayImage) (depth step : F) (hn : 0 < n) (hc : c.IsSquare n)
    (hd : GoodDepth depth) (hd1 : 1 ≤ val depth) (hs : embedSlack F levels * val depth < 2 ^ levels / 2)
    (hdepth : 2 ^ levels / 2 < (1 / 4 - embedSlack F levels) * val depth)
    (h : Relation.ReflTransGen (fun x y => ∃ (D : Deps F) (step : F), watermarkChannel D x depth step a levels = .ok y) c before)
    (hfeat : ∀ fs gs, equalizedFeatures D c a = .ok fs → equalizedFeatures D before a = .ok gs →
      threeBitQuantization gs step = threeBitQuantization fs step)
    (out : GrayImage) (hout : watermarkChannel D c depth step a levels = .ok out) :
    ∃ again, watermarkChannel D before depth step a levels = .ok again ∧ ∀ i < n, ∀ j < n,
        (∀ x < n, ∀ y < n, x / 2 ^ levels = i / 2 ^ levels → y / 2 ^ levels = j / 2 ^ levels →
          (3 / 4 + embedSlack F levels) * val depth / 2 ^ levels ≤ ((c.pixels.get x y).toNat : ℝ) ∧
          ((c.pixels.get x y).toNat : ℝ) ≤ 255 - (3 / 4 + embedSlack F levels) * val depth / 2 ^ levels) →
        (u F = 0 ∨ ∀ (k m : ℤ) (bit : Bool), embedSlack F levels * val depth / 2 ^ levels <
          |(val depth * (k + signedQuarter bit) - blockValue levels c.pixels i j) / 2 ^ levels - (m + 1 / 2)|) →
        again.pixels.get i j = out.pixels.get i j := by
  obtain ⟨b1, b2, b3, b4, b5, fs, q, p, record, m, e1, e2, e3, hl, hm, hraw⟩ := watermarkChannel_ok_only D c out depth step a levels hout
  obtain ⟨hbsq, hchain⟩ := remarked_records n levels a c before depth hc h
  obtain ⟨gs, g1, _⟩ := equalizedFeatures_square D before n a hbsq b2
  have g2 := hfeat fs gs e1 g1
  have hcp : c.pixels.IsSquare n := ⟨hc.1, hc.2.1⟩
  have hbp : before.pixels.IsSquare n := ⟨hbsq.1, hbsq.2.1⟩
  obtain ⟨m2, hem, hm2sq⟩ := embed_transfer D.ldpc n levels before.pixels c.pixels m record depth hn hbp hcp hm
  obtain ⟨direct, f1, f2, f3⟩ := embed_many n levels _ c.pixels depth hn hcp hd hd1 hs hdepth D.ldpc record
    before.pixels m2 hchain (by rw [hl]) hem
  obtain rfl : direct = m := by
    rw [hm] at f1
    exact (Except.ok.inj f1).symm
  obtain ⟨r1, r2, r3⟩ := fromRaw_toList m2 n hm2sq
  obtain ⟨s1, s2, s3⟩ := fromRaw_toList direct n f2
  refine ⟨⟨n, n, m2.toList⟩, ?_, fun i hi j hj hroom htie => ?_⟩
  · unfold watermarkChannel
    rw [fromShapeVec_ok before (by rw [hbsq.2.2, hbsq.1, hbsq.2.1]), ok_bind, g1, ok_bind, g2, e2, ok_bind]
    dsimp only
    rw [sign_builtin, if_pos b5, ok_bind, e3, ok_bind, hem, ok_bind, hbsq.1, hbsq.2.1]
    exact r1
  · rw [hc.1, hc.2.1, s1] at hraw
    rw [r3 i hi j hj, ← f3 i hi j hj hroom htie, ← s3 i hi j hj, ← Except.ok.inj hraw]

omit [LawfulFloat F] in
/-- `remarked_planes` for one amount of features. -/
theorem remarked_planes_amount (image out : DynamicImage) (depth : F) (a : Nat) (hg : GreyPixels image)
    (h : Relation.ReflTransGen (fun x y => ∃ (D : Deps F) (step : F), watermark D x depth step a = .ok y) image out)
    (s : Rgba → UInt8) (hs : s ∈ [Rgba.r, Rgba.g, Rgba.b]) :
    GreyPixels out ∧ out.width = image.width ∧ out.height = image.height ∧
    Relation.ReflTransGen (fun x y => ∃ (D : Deps F) (step : F), watermarkChannel D x depth step a 3 = .ok y)
      (image.plane s) (out.plane s) := by
  induction h with
  | refl => exact ⟨hg, rfl, rfl, .refl⟩
  | tail _ hstep ih =>
    rename_i b c _
    obtain ⟨hb, w1, w2, ih⟩ := ih
    obtain ⟨D, step, he⟩ := hstep
    obtain ⟨k1, k2, k3, _⟩ := watermark_keeps_shape_and_alpha D b c depth step a he
    obtain ⟨hc, _, _⟩ := remarked_planes b c depth hb (.single ⟨D, step, a, he⟩) s hs
    refine ⟨hc, k1.trans w1, k2.trans w2, ih.tail ⟨D, step, ?_⟩⟩
    obtain ⟨m, m1, m2⟩ := watermark_colour_planes D b c depth step a hb he s hs
    obtain ⟨a1, a2, a3⟩ := watermarkChannel_out D _ m depth step a 3 m1
    rw [plane_of_sample c s m (by rw [a1, k1]; rfl) (by rw [a2, k2]; rfl) a3 m2]
    exact m1

omit [LawfulFloat F] in
theorem watermarkChannel_square (D : Deps F) (c out : GrayImage) (depth step : F) (a levels n : Nat) (hc : c.IsSquare n)
    (h : watermarkChannel D c depth step a levels = .ok out) : out.IsSquare n := by
  obtain ⟨a1, a2, a3⟩ := watermarkChannel_out D c out depth step a levels h
  exact ⟨a1.trans hc.1, a2.trans hc.2.1, by rw [a3, a1, a2, hc.1, hc.2.1]⟩

omit [LawfulFloat F] in
/-- A channel marked at least once has sides that are multiples of 8. -/
theorem marked_sides (n a : Nat) (D : Deps F) (c out : GrayImage) (depth step : F) (hn : 0 < n) (hc : c.IsSquare n)
    (h : watermarkChannel D c depth step a 3 = .ok out) : 8 ∣ n := by
  obtain ⟨_, _, _, _, _, _, _, _, r0, mm, _, _, _, _, hm0, _⟩ := watermarkChannel_ok_only D c out depth step a 3 h
  have := (embed_ok_only D.ldpc c.pixels mm r0 depth 3 (by show 0 < c.width; rw [hc.1]; exact hn)
    (by show 0 < c.height; rw [hc.2.1]; exact hn) hm0).2.2.1
  have e : c.pixels.rows = n := hc.1
  rw [e] at this
  simpa using this

/-- `last_marking` for a plane of a picture. -/
theorem last_marking_plane (n a : Nat) (D : Deps F) (image : DynamicImage) (before out : GrayImage) (depth step : F) (hn : 0 < n)
    (hw : image.width = n) (hh : image.height = n) (hd : GoodDepth depth) (hd1 : 1 ≤ val depth) (hs : embedSlack F 3 * val depth < 4)
    (hdepth : 4 < (1 / 4 - embedSlack F 3) * val depth) (s : Rgba → UInt8)
    (h : Relation.ReflTransGen (fun x y => ∃ (D : Deps F) (step : F), watermarkChannel D x depth step a 3 = .ok y) (image.plane s) before)
    (hlast : watermarkChannel D before depth step a 3 = .ok out) :
    ∃ fs q p record direct, equalizedFeatures D before a = .ok fs ∧ threeBitQuantization fs step = .ok (q, p) ∧
      (Watermark.mk p (D.ed.sign (builtinSecret ++ builtinPublic) (vecI64ToBytes q)) watermarkText).serialize = .ok record ∧
      embed D.ldpc (image.plane s).pixels record depth 3 = .ok direct ∧ ∀ x < n, ∀ y < n,
        (∀ x' < n, ∀ y' < n, SameBlock x y x' y' → (3 / 4 + embedSlack F 3) * val depth / 8 ≤ ((s (image.pixel x' y')).toNat : ℝ) ∧
          ((s (image.pixel x' y')).toNat : ℝ) ≤ 255 - (3 / 4 + embedSlack F 3) * val depth / 8) →
        (u F = 0 ∨ ∀ (k m : ℤ) (bit : Bool), embedSlack F 3 * val depth / 8 <
          |(val depth * (k + signedQuarter bit) - (sampleSum image s x y : ℝ) / 8) / 8 - (m + 1 / 2)|) →
        out.sample x y = direct.get y x := by
  have hsq := plane_isSquare image n hw hh s
  have hsq' := (remarked_records n 3 a (image.plane s) before depth hsq h).1
  have hpi : ∀ x < n, ∀ y < n, (image.plane s).pixels.get y x = s (image.pixel x y) := fun x hx y hy => by
    rw [← sample_pixels _ n _ _ hsq, plane_sample image s _ _ (by omega) (by omega)]
  have h2 : (2 : ℝ) ^ 3 = 8 := by norm_num
  have h8 := marked_sides n a D before out depth step hn hsq' hlast
  obtain ⟨fs, q, p, record, direct, f1, f2, f3, f4, f5⟩ := last_marking n 3 a D (image.plane s) before out depth step hn hsq hd hd1
    (by rw [h2]; linarith) (by rw [h2]; linarith) h hlast
  refine ⟨fs, q, p, record, direct, f1, f2, f3, f4, fun x hx y hy hroom htie => ?_⟩
  rw [sample_pixels out n x y (watermarkChannel_square D _ out depth step a 3 n hsq' hlast)]
  refine f5 y hy x hx ?_ (htie.imp_right fun ht k m bit => ?_)
  · intro y' hy' x' hx' e1 e2
    rw [hpi x' hx' y' hy', h2]
    exact hroom x' hx' y' hy' ⟨e2, e1⟩
  · rw [blockValue_plane image n hw hh h8 s x y hx hy, h2]
    exact ht k m bit

/-- From channels to pictures. -/
theorem last_marking_image (n a : Nat) (D : Deps F) (image before out : DynamicImage) (depth step : F) (hn : 0 < n) (hw : image.width = n)
    (hh : image.height = n) (hg : GreyPixels image) (hd : GoodDepth depth) (hd1 : 1 ≤ val depth) (hs : embedSlack F 3 * val depth < 4)
    (hdepth : 4 < (1 / 4 - embedSlack F 3) * val depth) (s : Rgba → UInt8) (hsr : s ∈ [Rgba.r, Rgba.g, Rgba.b])
    (h : Relation.ReflTransGen (fun x y => ∃ (D : Deps F) (step : F), watermark D x depth step a = .ok y) image before)
    (hlast : watermark D before depth step a = .ok out) :
    ∃ fs q p record direct, equalizedFeatures D (before.plane s) a = .ok fs ∧ threeBitQuantization fs step = .ok (q, p) ∧
      (Watermark.mk p (D.ed.sign (builtinSecret ++ builtinPublic) (vecI64ToBytes q)) watermarkText).serialize = .ok record ∧
      embed D.ldpc (image.plane s).pixels record depth 3 = .ok direct ∧ ∀ x < n, ∀ y < n,
        (∀ x' < n, ∀ y' < n, SameBlock x y x' y' → (3 / 4 + embedSlack F 3) * val depth / 8 ≤ ((s (image.pixel x' y')).toNat : ℝ) ∧
          ((s (image.pixel x' y')).toNat : ℝ) ≤ 255 - (3 / 4 + embedSlack F 3) * val depth / 8) →
        (u F = 0 ∨ ∀ (k m : ℤ) (bit : Bool), embedSlack F 3 * val depth / 8 <
          |(val depth * (k + signedQuarter bit) - (sampleSum image s x y : ℝ) / 8) / 8 - (m + 1 / 2)|) →
        s (out.pixel x y) = direct.get y x := by
  obtain ⟨hgb, _, _, hch⟩ := remarked_planes_amount image before depth a hg h s hsr
  obtain ⟨m, m1, m2⟩ := watermark_colour_planes D before out depth step a hgb hlast s hsr
  obtain ⟨fs, q, p, record, direct, f1, f2, f3, f4, f5⟩ := last_marking_plane n a D image (before.plane s) m depth step hn hw hh hd hd1 hs
    hdepth s hch m1
  exact ⟨fs, q, p, record, direct, f1, f2, f3, f4, fun x hx y hy hroom htie => (m2 x y).trans (f5 x hx y hy hroom htie)⟩

/-- C90 in exact arithmetic: a square picture that is marked again and again with one depth above 16 and one amount of features, by whatever
libraries and with whatever steps, has the samples of the original with the record of the last marking embedded, in each block whose
samples are at least 3/32 of the depth away from black and white. -/
theorem last_marking_exact (n a : Nat) (D : Deps ℝ) (image before out : DynamicImage) (depth step : ℝ) (hn : 0 < n)
    (hw : image.width = n) (hh : image.height = n) (hg : GreyPixels image) (h16 : 16 < depth) (hmax : depth ≤ 2 ^ 100)
    (s : Rgba → UInt8) (hsr : s ∈ [Rgba.r, Rgba.g, Rgba.b])
    (h : Relation.ReflTransGen (fun x y => ∃ (D : Deps ℝ) (step : ℝ), watermark D x depth step a = .ok y) image before)
    (hlast : watermark D before depth step a = .ok out) :
    ∃ fs q p record direct, equalizedFeatures D (before.plane s) a = .ok fs ∧ threeBitQuantization fs step = .ok (q, p) ∧
      (Watermark.mk p (D.ed.sign (builtinSecret ++ builtinPublic) (vecI64ToBytes q)) watermarkText).serialize = .ok record ∧
      embed D.ldpc (image.plane s).pixels record depth 3 = .ok direct ∧ ∀ x < n, ∀ y < n,
        (∀ x' < n, ∀ y' < n, SameBlock x y x' y' →
          3 / 32 * depth ≤ ((s (image.pixel x' y')).toNat : ℝ) ∧ ((s (image.pixel x' y')).toNat : ℝ) ≤ 255 - 3 / 32 * depth) →
        s (out.pixel x y) = direct.get y x := by
  have hu : u ℝ = 0 := rfl
  have hv : val depth = depth := rfl
  have hsl : embedSlack ℝ 3 = 0 := by unfold embedSlack; rw [hu, zero_mul]
  obtain ⟨fs, q, p, record, direct, f1, f2, f3, f4, f5⟩ := last_marking_image n a D image before out depth step hn hw hh hg
    ⟨trivial, by rw [hv]; refine le_trans ?_ h16.le; norm_num, by rw [hv]; exact hmax⟩
    (by rw [hv]; linarith) (by rw [hsl]; norm_num) (by rw [hsl, hv]; linarith) s hsr h hlast
  refine ⟨fs, q, p, record, direct, f1, f2, f3, f4, fun x hx y hy hroom => f5 x hx y hy ?_ (Or.inl hu)⟩
  rw [hsl, hv]
  intro x' hx' y' hy' e
  obtain ⟨r1, r2⟩ := hroom x' hx' y' hy' e
  constructor <;> linarith

/-- The ways of `remarking_tool` are never close to the middle between two integers. -/
theorem way_no_tie (N : Nat) (hN : N % 16 ≠ 8) (k m : ℤ) (bit : Bool) :
    1 / 64 ≤ |(100 * ((k : ℝ) + signedQuarter bit) - (N : ℝ) / 8) / 8 - (m + 1 / 2)| := by
  have hint : ∃ z : ℤ, z ≠ 0 ∧ (100 * ((k : ℝ) + signedQuarter bit) - (N : ℝ) / 8) / 8 - (m + 1 / 2) = (z : ℝ) / 64 := by
    unfold signedQuarter
    cases bit
    · refine ⟨200 * (4 * k - 1) - (N : ℤ) - 64 * m - 32, by omega, ?_⟩
      rw [if_neg (by decide)]
      push_cast
      ring
    · refine ⟨200 * (4 * k + 1) - (N : ℤ) - 64 * m - 32, by omega, ?_⟩
      rw [if_pos rfl]
      push_cast
      ring
  obtain ⟨z, hz, hzz⟩ := hint
  rw [hzz, abs_div, abs_of_pos (by norm_num : (0 : ℝ) < 64)]
  have : (1 : ℝ) ≤ |(z : ℝ)| := by exact_mod_cast Int.one_le_abs hz
  linarith

/-- C90 in double precision with the depth 100 of the tool, in each block of 8 x 8 samples that are between 10 and 245 and have a sum
that does not leave the remainder 8 when divided by 16. -/
theorem last_marking_tool (n a : Nat) (D : Deps F64) (image before out : DynamicImage) (step : F64) (hn : 0 < n)
    (hw : image.width = n) (hh : image.height = n) (hg : GreyPixels image) (s : Rgba → UInt8) (hsr : s ∈ [Rgba.r, Rgba.g, Rgba.b])
    (h : Relation.ReflTransGen (fun x y => ∃ (D : Deps F64) (step : F64), watermark D x (.fin 100) step a = .ok y) image before)
    (hlast : watermark D before (.fin 100) step a = .ok out) :
    ∃ fs q p record direct, equalizedFeatures D (before.plane s) a = .ok fs ∧ threeBitQuantization fs step = .ok (q, p) ∧
      (Watermark.mk p (D.ed.sign (builtinSecret ++ builtinPublic) (vecI64ToBytes q)) watermarkText).serialize = .ok record ∧
      embed D.ldpc (image.plane s).pixels record (F64.fin 100) 3 = .ok direct ∧ ∀ x < n, ∀ y < n,
        (∀ x' < n, ∀ y' < n, SameBlock x y x' y' → 10 ≤ (s (image.pixel x' y')).toNat ∧ (s (image.pixel x' y')).toNat ≤ 245) →
        sampleSum image s x y % 16 ≠ 8 → s (out.pixel x y) = direct.get y x := by
  have hv : val (F64.fin 100) = 100 := by
    show (((100 : ℚ) : ℝ)) = 100
    norm_num
  have hgood : GoodDepth (F64.fin 100) := ⟨trivial, by rw [hv]; norm_num, by rw [hv]; norm_num⟩
  have hsl := embedSlack_double 3 le_rfl
  have hsl0 := embedSlack_nonneg (F := F64) 3
  obtain ⟨fs, q, p, record, direct, f1, f2, f3, f4, f5⟩ := last_marking_image n a D image before out (F64.fin 100) step hn hw hh hg hgood
    (by rw [hv]; norm_num) (by rw [hv]; linarith) (by rw [hv]; linarith) s hsr h hlast
  refine ⟨fs, q, p, record, direct, f1, f2, f3, f4, fun x hx y hy hroom hsum => f5 x hx y hy ?_ (Or.inr fun k m bit => ?_)⟩
  · rw [hv]
    intro x' hx' y' hy' e
    obtain ⟨r1, r2⟩ := hroom x' hx' y' hy' e
    have r1' : (10 : ℝ) ≤ ((s (image.pixel x' y')).toNat : ℝ) := by exact_mod_cast r1
    have r2' : ((s (image.pixel x' y')).toNat : ℝ) ≤ 245 := by exact_mod_cast r2
    constructor <;> linarith
  · have := way_no_tie _ hsum k m bit
    rw [hv]
    linarith

/-- From channels to pictures. -/
theorem marking_again_image (n a : Nat) (D : Deps F) (image before out : DynamicImage) (depth step : F) (hn : 0 < n) (hw : image.width = n)
    (hh : image.height = n) (hg : GreyPixels image) (hd : GoodDepth depth) (hd1 : 1 ≤ val depth) (hs : embedSlack F 3 * val depth < 4)
    (hdepth : 4 < (1 / 4 - embedSlack F 3) * val depth)
    (h : Relation.ReflTransGen (fun x y => ∃ (D : Deps F) (step : F), watermark D x depth step a = .ok y) image before)
    (hfeat : ∀ s ∈ [Rgba.r, Rgba.g, Rgba.b], ∀ fs gs, equalizedFeatures D (image.plane s) a = .ok fs →
      equalizedFeatures D (before.plane s) a = .ok gs → threeBitQuantization gs step = threeBitQuantization fs step)
    (hout : watermark D image depth step a = .ok out) :
    ∃ again, watermark D before depth step a = .ok again ∧
      ∀ s ∈ [Rgba.r, Rgba.g, Rgba.b], ∀ x < n, ∀ y < n,
        (∀ x' < n, ∀ y' < n, SameBlock x y x' y' → (3 / 4 + embedSlack F 3) * val depth / 8 ≤ ((s (image.pixel x' y')).toNat : ℝ) ∧
          ((s (image.pixel x' y')).toNat : ℝ) ≤ 255 - (3 / 4 + embedSlack F 3) * val depth / 8) →
        (u F = 0 ∨ ∀ (k m : ℤ) (bit : Bool), embedSlack F 3 * val depth / 8 <
          |(val depth * (k + signedQuarter bit) - (sampleSum image s x y : ℝ) / 8) / 8 - (m + 1 / 2)|) →
        s (again.pixel x y) = s (out.pixel x y) := by
  have h2 : (2 : ℝ) ^ 3 = 8 := by norm_num
  have key : ∀ s ∈ [Rgba.r, Rgba.g, Rgba.b], ∃ m, watermarkChannel D (before.plane s) depth step a 3 = .ok m ∧
      ∀ x < n, ∀ y < n,
        (∀ x' < n, ∀ y' < n, SameBlock x y x' y' → (3 / 4 + embedSlack F 3) * val depth / 8 ≤ ((s (image.pixel x' y')).toNat : ℝ) ∧
          ((s (image.pixel x' y')).toNat : ℝ) ≤ 255 - (3 / 4 + embedSlack F 3) * val depth / 8) →
        (u F = 0 ∨ ∀ (k m : ℤ) (bit : Bool), embedSlack F 3 * val depth / 8 <
          |(val depth * (k + signedQuarter bit) - (sampleSum image s x y : ℝ) / 8) / 8 - (m + 1 / 2)|) →
        s (out.pixel x y) = m.sample x y := by
    intro s hsr
    obtain ⟨m, m1, m2⟩ := watermark_colour_planes D image out depth step a hg hout s hsr
    obtain ⟨_, w1, w2, hch⟩ := remarked_planes_amount image before depth a hg h s hsr
    have hsq := plane_isSquare image n hw hh s
    have hsq' := plane_isSquare before n (w1.trans hw) (w2.trans hh) s
    have hpi : ∀ x < n, ∀ y < n, (image.plane s).pixels.get y x = s (image.pixel x y) := fun x hx y hy => by
      rw [← sample_pixels _ n _ _ hsq, plane_sample image s _ _ (by omega) (by omega)]
    have h8 := marked_sides n a D (image.plane s) m depth step hn hsq m1
    obtain ⟨again, k1, k2⟩ := marking_again n 3 a D (image.plane s) (before.plane s) depth step hn hsq hd hd1 (by rw [h2]; linarith)
      (by rw [h2]; linarith) hch (hfeat s hsr) m m1
    refine ⟨again, k1, fun x hx y hy hroom htie => ?_⟩
    rw [m2 x y, sample_pixels m n x y (watermarkChannel_square D _ m depth step a 3 n hsq m1),
      sample_pixels again n x y (watermarkChannel_square D _ again depth step a 3 n hsq' k1)]
    refine (k2 y hy x hx ?_ (htie.imp_right fun ht k m bit => ?_)).symm
    · intro y' hy' x' hx' e1 e2
      rw [hpi x' hx' y' hy', h2]
      exact hroom x' hx' y' hy' ⟨e2, e1⟩
    · rw [blockValue_plane image n hw hh h8 s x y hx hy, h2]
      exact ht k m bit
  obtain ⟨mr, r1, _⟩ := key Rgba.r (by simp)
  obtain ⟨mg, g1, _⟩ := key Rgba.g (by simp)
  obtain ⟨mb, b1, _⟩ := key Rgba.b (by simp)
  obtain ⟨again, ha⟩ := (watermark_succeeds_iff D before depth step a).2 ⟨⟨mr, r1⟩, fun _ => ⟨⟨mg, g1⟩, ⟨mb, b1⟩⟩⟩
  refine ⟨again, ha, fun s hsr x hx y hy hroom htie => ?_⟩
  have hgb := (remarked_planes_amount image before depth a hg h s hsr).1
  obtain ⟨m', m1', m2'⟩ := watermark_colour_planes D before again depth step a hgb ha s hsr
  obtain ⟨m, m1, m2⟩ := key s hsr
  obtain rfl : m' = m := by
    rw [m1] at m1'
    exact (Except.ok.inj m1').symm
  rw [m2' x y, m2 x hx y hy hroom htie]

/-- C90 in double precision with the depth 100 of the tool: if the features of every colour of a picture that was marked before have the
cells and bits of the original's, marking it gives the samples that marking the original gives, in each block of 8 x 8 samples that
are between 10 and 245 and have a sum that does not leave the remainder 8 when divided by 16. In particular (`before` being the
marked picture) marking twice is there the same as marking once. -/
theorem marking_again_tool (n a : Nat) (D : Deps F64) (image before out : DynamicImage) (step : F64) (hn : 0 < n) (hw : image.width = n)
    (hh : image.height = n) (hg : GreyPixels image)
    (h : Relation.ReflTransGen (fun x y => ∃ (D : Deps F64) (step : F64), watermark D x (.fin 100) step a = .ok y) image before)
    (hfeat : ∀ s ∈ [Rgba.r, Rgba.g, Rgba.b], ∀ fs gs, equalizedFeatures D (image.plane s) a = .ok fs →
      equalizedFeatures D (before.plane s) a = .ok gs → threeBitQuantization gs step = threeBitQuantization fs step)
    (hout : watermark D image (.fin 100) step a = .ok out) :
    ∃ again, watermark D before (.fin 100) step a = .ok again ∧
      ∀ s ∈ [Rgba.r, Rgba.g, Rgba.b], ∀ x < n, ∀ y < n,
        (∀ x' < n, ∀ y' < n, SameBlock x y x' y' → 10 ≤ (s (image.pixel x' y')).toNat ∧ (s (image.pixel x' y')).toNat ≤ 245) →
        sampleSum image s x y % 16 ≠ 8 → s (again.pixel x y) = s (out.pixel x y) := by
  have hv : val (F64.fin 100) = 100 := by
    show (((100 : ℚ) : ℝ)) = 100
    norm_num
  have hgood : GoodDepth (F64.fin 100) := ⟨trivial, by rw [hv]; norm_num, by rw [hv]; norm_num⟩
  have hsl := embedSlack_double 3 le_rfl
  have hsl0 := embedSlack_nonneg (F := F64) 3
  obtain ⟨again, k1, k2⟩ := marking_again_image n a D image before out (F64.fin 100) step hn hw hh hg hgood (by rw [hv]; norm_num)
    (by rw [hv]; linarith) (by rw [hv]; linarith) h hfeat hout
  refine ⟨again, k1, fun s hsr x hx y hy hroom hsum => k2 s hsr x hx y hy ?_ (Or.inr fun k m bit => ?_)⟩
  · rw [hv]
    intro x' hx' y' hy' e
    obtain ⟨r1, r2⟩ := hroom x' hx' y' hy' e
    have r1' : (10 : ℝ) ≤ ((s (image.pixel x' y')).toNat : ℝ) := by exact_mod_cast r1
    have r2' : ((s (image.pixel x' y')).toNat : ℝ) ≤ 245 := by exact_mod_cast r2
    constructor <;> linarith
  · have := way_no_tie _ hsum k m bit
    rw [hv]
    linarith

end Sia
