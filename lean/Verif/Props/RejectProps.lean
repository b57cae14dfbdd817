import Verif.Props.PipelineProps
import Verif.Lemmas.RectLemmas

/-! C40, C41, C51, C52: what authentication covers, which images are rejected, and which accepted images can never be
authenticated. -/
namespace Sia
open LawfulFloat

section
variable {F : Type} [FloatOps F]

/-! ### C40 -/

theorem dequantization_prefix (fs gs : List F) (p : List Bool) (step : F)
    (hf : FeaturesInRange fs step) (hg : FeaturesInRange gs step)
    (hfl : p.length ≤ 3 * fs.length) (hgl : p.length ≤ 3 * gs.length)
    (heq : fs.take (p.length / 3) = gs.take (p.length / 3)) (h3 : 3 ∣ p.length) :
    threeBitDequantization fs p step = threeBitDequantization gs p step := by
  have key : ∀ l : List F, FeaturesInRange l step → p.length ≤ 3 * l.length →
      threeBitDequantization l p step = threeBitDequantization (l.take (p.length / 3)) p step := by
    intro l hl hlen
    have := dequantization_ignores_rest (l.take (p.length / 3)) (l.drop (p.length / 3)) p step
      (by rw [List.take_append_drop]; exact hl) h3 (by rw [List.length_take]; omega)
    rwa [List.take_append_drop] at this
  rw [key fs hf hfl, key gs hg hgl, heq]

/-- C40: the record found in the image decides how many features are checked. Two channels (of whatever size, read with
whatever feature counts, depths and level counts) carrying the same record get the same verdict as soon as they agree on the
features the record has perturbation bits for; all other features are irrelevant. -/
theorem authenticate_checks_prefix (D : Deps F) (c c' : GrayImage) (depth depth' step : F) (a a' levels levels' : Nat)
    (data : List UInt8) (w : Watermark) (fs fs' : List F)
    (hr : c.raw.length = c.width * c.height) (hr' : c'.raw.length = c'.width * c'.height)
    (hx : extract D.ldpc c.pixels depth levels = .ok data) (hx' : extract D.ldpc c'.pixels depth' levels' = .ok data)
    (hw : deserializeWatermark data = .ok w)
    (hf : equalizedFeatures D c a = .ok fs) (hf' : equalizedFeatures D c' a' = .ok fs')
    (hq : FeaturesInRange fs step) (hq' : FeaturesInRange fs' step)
    (h3 : 3 ∣ w.perturbationVector.length) (hl : w.perturbationVector.length ≤ 3 * a)
    (hl' : w.perturbationVector.length ≤ 3 * a')
    (heq : fs.take (w.perturbationVector.length / 3) = fs'.take (w.perturbationVector.length / 3)) (b : Bool) :
    authenticateChannel D c depth step a levels = .ok b ↔ authenticateChannel D c' depth' step a' levels' = .ok b := by
  have l1 := (equalizedFeatures_length D c a fs hf).2.1
  have l2 := (equalizedFeatures_length D c' a' fs' hf').2.1
  have hd := dequantization_prefix fs fs' w.perturbationVector step hq hq' (by rw [l1]; exact hl) (by rw [l2]; exact hl') heq h3
  rw [authenticate_iff, authenticate_iff]
  constructor
  · rintro ⟨_, fs0, data0, w0, q, h1, h2, h3', h4, h5⟩
    rw [hf] at h1; cases h1
    rw [hx] at h2; cases h2
    rw [hw] at h3'; cases h3'
    rw [hd] at h4
    exact ⟨hr', fs', data, w, q, hf', hx', hw, h4, h5⟩
  · rintro ⟨_, fs0, data0, w0, q, h1, h2, h3', h4, h5⟩
    rw [hf'] at h1; cases h1
    rw [hx'] at h2; cases h2
    rw [hw] at h3'; cases h3'
    rw [← hd] at h4
    exact ⟨hr, fs, data, w, q, hf, hx, hw, h4, h5⟩

/-- C40: with a record that has no perturbation bits no feature of the image is looked at: the verdict is that of the signature
on the empty message. -/
theorem authenticate_no_bits (D : Deps F) (c : GrayImage) (depth step : F) (a levels : Nat) (data : List UInt8) (w : Watermark)
    (fs : List F) (hr : c.raw.length = c.width * c.height) (hx : extract D.ldpc c.pixels depth levels = .ok data)
    (hw : deserializeWatermark data = .ok w) (hp : w.perturbationVector = [])
    (hf : equalizedFeatures D c a = .ok fs) (hq : FeaturesInRange fs step)
    (hpub : D.ed.publicOk builtinPublic = true) (hsig : D.ed.signatureOk w.signature = true) :
    authenticateChannel D c depth step a levels = .ok (D.ed.verify builtinPublic [] w.signature) := by
  rw [authenticate_iff]
  refine ⟨hr, fs, data, w, [], hf, hx, hw, ?_, hpub, hsig, ?_⟩
  · obtain ⟨hiff, hlen⟩ := dequantization_succeeds_iff fs w.perturbationVector step hq
    obtain ⟨r, hr'⟩ := hiff.mpr (by rw [hp]; simp)
    have := hlen r hr'
    rw [hp] at this
    have hr0 : r = [] := List.length_eq_zero_iff.mp (by simpa using this)
    rw [hr', hr0]
  · rfl

/-- C40: a record with perturbation bits for more features than the verifier computes, or not for a whole number of features,
makes authentication abort. -/
theorem authenticate_too_many_bits (D : Deps F) (c : GrayImage) (depth step : F) (a levels : Nat) (data : List UInt8)
    (w : Watermark) (hx : extract D.ldpc c.pixels depth levels = .ok data)
    (hw : deserializeWatermark data = .ok w)
    (hp : 3 * a < w.perturbationVector.length ∨ ¬ 3 ∣ w.perturbationVector.length) :
    ∃ e, authenticateChannel D c depth step a levels = .error e := by
  cases h : authenticateChannel D c depth step a levels with
  | error e => exact ⟨e, rfl⟩
  | ok b =>
    exfalso
    obtain ⟨_, fs, data0, w0, q, h1, h2, h3, h4, _⟩ := (authenticate_iff D c depth step a levels b).mp h
    rw [hx] at h2; cases h2
    rw [hw] at h3; cases h3
    have hl := (equalizedFeatures_length D c a fs h1).2.1
    by_cases hm : FeaturesInRange fs step
    swap
    · obtain ⟨e, he⟩ := (quantization_min_aborts fs w.perturbationVector step hm).2
      rw [he] at h4; cases h4
    · have := ((dequantization_succeeds_iff fs w.perturbationVector step hm).1).mp ⟨q, h4⟩
      omega

/-! ### C41 -/

/-- What `watermarkChannel` needs before embedding starts. -/
theorem watermarkChannel_ok_only (D : Deps F) (c out : GrayImage) (depth step : F) (a levels : Nat)
    (h : watermarkChannel D c depth step a levels = .ok out) :
    c.raw.length = c.width * c.height ∧ 1 ≤ a ∧ a ≤ 85 ∧ ¬ c.width * c.width < c.width * c.height ∧
      D.ed.keypairOk (builtinSecret ++ builtinPublic) = true ∧
      ∃ fs q p record m, equalizedFeatures D c a = .ok fs ∧ threeBitQuantization fs step = .ok (q, p) ∧
        (Watermark.mk p (D.ed.sign (builtinSecret ++ builtinPublic) (vecI64ToBytes q)) watermarkText).serialize = .ok record ∧
        record.length = recordBytes a ∧ embed D.ldpc c.pixels record depth levels = .ok m ∧
        GrayImage.fromRaw c.width c.height m.toList = .ok out := by
  have h0 := h
  unfold watermarkChannel at h
  by_cases hraw : c.raw.length = c.width * c.height
  swap
  · unfold fromShapeVec at h; rw [if_neg hraw] at h; simp [bind, Except.bind] at h
  rw [fromShapeVec_ok c hraw] at h
  simp only [bind, Except.bind] at h
  cases hf : equalizedFeatures D c a with
  | error e => rw [hf] at h; simp at h
  | ok fs =>
    rw [hf] at h
    dsimp only at h
    obtain ⟨ha, hl, hw⟩ := equalizedFeatures_length D c a fs hf
    cases hq : threeBitQuantization fs step with
    | error e => rw [hq] at h; simp at h
    | ok qp =>
      obtain ⟨q, p⟩ := qp
      rw [hq] at h
      dsimp only at h
      rw [sign_builtin] at h
      by_cases hk : D.ed.keypairOk (builtinSecret ++ builtinPublic) = true
      swap
      · rw [if_neg hk] at h; simp at h
      rw [if_pos hk] at h
      dsimp only at h
      have hpl := (threeBitQuantization_lengths fs step q p hq).2
      have hp : p.length ≤ 255 := by
        by_contra hbig
        have : ∃ e, (Watermark.mk p (D.ed.sign (builtinSecret ++ builtinPublic) (vecI64ToBytes q)) watermarkText).serialize
            = .error e := by
          unfold Watermark.serialize
          dsimp only
          rw [if_pos (by omega)]
          exact ⟨_, rfl⟩
        obtain ⟨e, he⟩ := this
        rw [he] at h; simp at h
      obtain ⟨record, hs, _, hlen, hwm⟩ := watermarkChannel_split D c depth step a levels hraw fs hf q p hq hk hp
      rw [hwm] at h0
      cases he : embed D.ldpc c.pixels record depth levels with
      | error e => rw [he] at h0; simp [Except.bind] at h0
      | ok m =>
        rw [he] at h0
        exact ⟨hraw, ha, by omega, hw, hk, fs, q, p, record, m, rfl, hq, hs, hlen, he, h0⟩

/-- C41: zero features, or more than 85, are always refused. -/
theorem watermark_refuses_feature_counts (D : Deps F) (c : GrayImage) (depth step : F) (a levels : Nat)
    (ha : a = 0 ∨ 85 < a) : ∃ e, watermarkChannel D c depth step a levels = .error e := by
  cases h : watermarkChannel D c depth step a levels with
  | error e => exact ⟨e, rfl⟩
  | ok out =>
    obtain ⟨_, h1, h2, _⟩ := watermarkChannel_ok_only D c out depth step a levels h
    omega

/-- C41: an image without pixels is refused. -/
theorem watermark_refuses_empty (D : Deps F) (c : GrayImage) (depth step : F) (a levels : Nat)
    (h0 : c.width = 0 ∨ c.height = 0) : ∃ e, watermarkChannel D c depth step a levels = .error e := by
  cases h : watermarkChannel D c depth step a levels with
  | error e => exact ⟨e, rfl⟩
  | ok out =>
    obtain ⟨_, _, _, _, _, fs, q, p, record, m, _, _, _, _, hm, _⟩ := watermarkChannel_ok_only D c out depth step a levels h
    obtain ⟨e, he⟩ := (empty_image_aborts D.ldpc c.pixels record depth levels (by
      show c.width * c.height = 0
      rcases h0 with h | h <;> simp [h])).1
    rw [he] at hm; cases hm

/-- C41: every image higher than wide is refused. -/
theorem watermark_refuses_portrait (D : Deps F) (c : GrayImage) (depth step : F) (a levels : Nat)
    (hp : c.width < c.height) : ∃ e, watermarkChannel D c depth step a levels = .error e := by
  rcases Nat.eq_zero_or_pos c.width with h0 | h0
  · exact watermark_refuses_empty D c depth step a levels (Or.inl h0)
  cases h : watermarkChannel D c depth step a levels with
  | error e => exact ⟨e, rfl⟩
  | ok out =>
    obtain ⟨_, _, _, h3, _⟩ := watermarkChannel_ok_only D c out depth step a levels h
    exact absurd (Nat.mul_lt_mul_of_pos_left hp h0) h3

/-- C41: a square image is accepted exactly if the number of features is 1..=85, every feature can be quantized, and the record
fits: the side is divisible by `2^levels`, the domain holds at least 9 bytes and the encoded record. -/
theorem watermark_square_iff (D : Deps F) (hk : D.ed.keypairOk (builtinSecret ++ builtinPublic) = true) (c : GrayImage)
    (n levels a : Nat) (depth step : F) (hn : 0 < n) (hc : c.IsSquare n) :
    (∃ out, watermarkChannel D c depth step a levels = .ok out) ↔
      (1 ≤ a ∧ a ≤ 85) ∧ (∀ fs, equalizedFeatures D c a = .ok fs → FeaturesInRange fs step) ∧
      1 ≤ levels ∧ levels ≤ 30 ∧ 2 ^ levels ∣ n ∧ 9 ≤ domainBytes n levels ∧
        encodedLength (domainBytes n levels) (recordBytes a) ≤ domainBytes n levels := by
  have hsq : c.pixels.IsSquare n := ⟨hc.1, hc.2.1⟩
  constructor
  · rintro ⟨out, h⟩
    obtain ⟨hraw, h1, h2, _, _, fs, q, p, record, m, hf, hq, hs, hlen, he, _⟩ :=
      watermarkChannel_ok_only D c out depth step a levels h
    obtain ⟨e1, e2, e3, _, e5, e6⟩ := (embed_succeeds_iff D.ldpc n levels c.pixels record depth hn hsq).mp ⟨m, he⟩
    refine ⟨⟨h1, h2⟩, ?_, e1, e2, e3, e5, by rw [← hlen]; exact e6⟩
    intro fs' hf'
    by_contra hm
    rw [hf] at hf'; cases hf'
    obtain ⟨e, he'⟩ := (quantization_min_aborts fs [] step hm).1
    rw [he'] at hq; cases hq
  · rintro ⟨⟨h1, h2⟩, hmin, e1, e2, e3, e5, e6⟩
    obtain ⟨fs, hf, hl⟩ := equalizedFeatures_square D c n a hc h1
    have hm := hmin fs hf
    have hq := threeBitQuantization_ok fs step (fun f hf' e => (featuresInRange_iff _ _).1 hm (by
      unfold quantize; rw [← e]; exact List.mem_map_of_mem hf'))
    obtain ⟨record, hs, _, hlen, hwm⟩ := watermarkChannel_split D c depth step a levels
      (by rw [hc.1, hc.2.1, hc.2.2]) fs hf _ _ hq hk (by
        rw [(threeBitQuantization_lengths fs step _ _ hq).2, hl]; omega)
    obtain ⟨m, he⟩ := (embed_succeeds_iff D.ldpc n levels c.pixels record depth hn hsq).mpr
      ⟨e1, e2, e3, by rw [hlen]; unfold recordBytes; omega, e5, by rw [hlen]; exact e6⟩
    obtain ⟨hm1, hm2⟩ := embed_shape D.ldpc c.pixels m record depth levels he
    refine ⟨⟨n, n, m.toList⟩, ?_⟩
    rw [hwm, he, hc.1, hc.2.1]
    exact (fromRaw_toList m n ⟨by rw [hm1]; exact hc.1, by rw [hm2]; exact hc.2.1⟩).1

/-- C41: an image wider than high is accepted exactly if, besides the conditions on the features, both sides are divisible by
`2^levels` and the encoded record has no more bits than the height of the domain. -/
theorem watermark_landscape_iff (D : Deps F) (hk : D.ed.keypairOk (builtinSecret ++ builtinPublic) = true) (c : GrayImage)
    (levels a : Nat) (depth step : F) (h0 : 0 < c.height) (hl : c.height < c.width)
    (hraw : c.raw.length = c.width * c.height) :
    (∃ out, watermarkChannel D c depth step a levels = .ok out) ↔
      (1 ≤ a ∧ a ≤ 85) ∧ (∀ fs, equalizedFeatures D c a = .ok fs → FeaturesInRange fs step) ∧
      1 ≤ levels ∧ levels ≤ 30 ∧ 2 ^ levels ∣ c.width ∧ 2 ^ levels ∣ c.height ∧
      9 ≤ c.width / 2 ^ levels * (c.height / 2 ^ levels) / 8 ∧
      8 * encodedLength (c.width / 2 ^ levels * (c.height / 2 ^ levels) / 8) (recordBytes a) ≤ c.height / 2 ^ levels := by
  constructor
  · rintro ⟨out, h⟩
    obtain ⟨_, h1, h2, _, _, fs, q, p, record, m, hf, hq, hs, hlen, he, _⟩ :=
      watermarkChannel_ok_only D c out depth step a levels h
    obtain ⟨e1, e2, e3, e4, _, e6, e7⟩ := (embed_tall_iff D.ldpc c.pixels record depth levels h0 hl).mp ⟨m, he⟩
    refine ⟨⟨h1, h2⟩, ?_, e1, e2, e3, e4, e6, by rw [← hlen]; exact e7⟩
    intro fs' hf'
    by_contra hm
    rw [hf] at hf'; cases hf'
    obtain ⟨e, he'⟩ := (quantization_min_aborts fs [] step hm).1
    rw [he'] at hq; cases hq
  · rintro ⟨⟨h1, h2⟩, hmin, e1, e2, e3, e4, e5, e6⟩
    obtain ⟨fs, hf⟩ : ∃ fs, equalizedFeatures D c a = .ok fs := by
      unfold equalizedFeatures fromShapeVec
      rw [if_pos (by rw [D.equalize_length, hraw])]
      simp only [bind, Except.bind]
      rw [channelFeatures_eq D _ a h1 (by
        dsimp only
        have := Nat.mul_le_mul_left c.width hl.le
        omega)]
      exact ⟨_, rfl⟩
    have hfl := (equalizedFeatures_length D c a fs hf).2.1
    have hm := hmin fs hf
    have hq := threeBitQuantization_ok fs step (fun f hf' e => (featuresInRange_iff _ _).1 hm (by
      unfold quantize; rw [← e]; exact List.mem_map_of_mem hf'))
    obtain ⟨record, hs, _, hlen, hwm⟩ := watermarkChannel_split D c depth step a levels hraw fs hf _ _ hq hk (by
        rw [(threeBitQuantization_lengths fs step _ _ hq).2, hfl]; omega)
    obtain ⟨m, he⟩ := (embed_tall_iff D.ldpc c.pixels record depth levels h0 hl).mpr
      ⟨e1, e2, e3, e4, by rw [hlen]; unfold recordBytes; omega, e5, by rw [hlen]; exact e6⟩
    obtain ⟨hm1, hm2⟩ := embed_shape D.ldpc c.pixels m record depth levels he
    refine ⟨⟨c.width, c.height, m.toList⟩, ?_⟩
    rw [hwm, he]
    show GrayImage.fromRaw _ _ _ = _
    unfold GrayImage.fromRaw
    rw [if_pos]
    rw [mat_toList_length, hm1, hm2]
    exact le_rfl

/-- C41: at the three levels the program uses, an image wider than high is refused unless it is at least 65536 pixels high. -/
theorem watermark_refuses_landscape (D : Deps F) (c : GrayImage) (depth step : F) (a : Nat) (h0 : 0 < c.height)
    (hl : c.height < c.width) (hh : c.height < 65536) : ∃ e, watermarkChannel D c depth step a dwtLevels = .error e := by
  cases h : watermarkChannel D c depth step a dwtLevels with
  | error e => exact ⟨e, rfl⟩
  | ok out =>
    exfalso
    obtain ⟨hraw, _, _, _, hk, _⟩ := watermarkChannel_ok_only D c out depth step a dwtLevels h
    obtain ⟨⟨_, _⟩, _, _, _, h3, h4, h9, h8⟩ := (watermark_landscape_iff D hk c dwtLevels a depth step h0 hl hraw).mp ⟨out, h⟩
    unfold dwtLevels at *
    obtain ⟨r, hr⟩ := h3
    obtain ⟨k, hk'⟩ := h4
    rw [hr, hk'] at h8 h9
    rw [hk'] at hh
    rw [hr, hk'] at hl
    simp only [show (2 : ℕ) ^ 3 = 8 by norm_num] at *
    rw [Nat.mul_div_cancel_left _ (by norm_num), Nat.mul_div_cancel_left _ (by norm_num)] at h8
    have hrk : k < r := by omega
    have hrec : 80 ≤ recordBytes a := by unfold recordBytes; omega
    unfold encodedLength at h8
    split_ifs at h8 with hsup
    · by_cases hbig : 1024 ≤ r * k / 8
      · have hd : dataBytes (r * k / 8) = 512 := by unfold dataBytes; split_ifs <;> omega
        unfold blockBytes at h8
        rw [hd] at h8
        have : 1 ≤ (recordBytes a + 4 + 512 - 1) / 512 := by omega
        omega
      · -- the capacity is below 1024 bytes, hence the height of the domain below 91
        have hk91 : k < 91 := by
          by_contra hc
          have h1 : 91 * 92 ≤ k * r := Nat.mul_le_mul (by omega) (by omega)
          rw [Nat.mul_comm k r] at h1
          omega
        unfold blockBytes at h8
        have hd : 8 ≤ dataBytes (r * k / 8) := by unfold dataBytes; split_ifs <;> omega
        have hd' : dataBytes (r * k / 8) ≤ 512 := by unfold dataBytes; split_ifs <;> omega
        generalize dataBytes (r * k / 8) = d at *
        have hceil : recordBytes a + 4 ≤ (recordBytes a + 4 + d - 1) / d * d := by
          have := Nat.lt_div_mul_add (a := recordBytes a + 4 + d - 1) (b := d) (by omega)
          omega
        have : (recordBytes a + 4 + d - 1) / d * (2 * d) = 2 * ((recordBytes a + 4 + d - 1) / d * d) := by ring
        omega
    · have hsmall : r * k / 8 < 1024 := by
        by_contra hc; exact hsup (by unfold SupportedCapacity; omega)
      have hk91 : k < 91 := by
        by_contra hc
        have h1 : 91 * 92 ≤ k * r := Nat.mul_le_mul (by omega) (by omega)
        rw [Nat.mul_comm k r] at h1
        omega
      omega

/-! ### C52 -/

/-- C52: no image that is not square is ever authenticated: authentication aborts, whatever the image contains. -/
theorem authenticate_nonsquare_aborts (D : Deps F) (c : GrayImage) (depth step : F) (a levels : Nat)
    (hne : c.width ≠ c.height) : ∃ e, authenticateChannel D c depth step a levels = .error e := by
  cases h : authenticateChannel D c depth step a levels with
  | error e => exact ⟨e, rfl⟩
  | ok b =>
    exfalso
    obtain ⟨_, fs, data, w, q, h1, h2, _⟩ := (authenticate_iff D c depth step a levels b).mp h
    have hz : ¬ c.width * c.height = 0 := by
      intro hz
      obtain ⟨e, he⟩ := (empty_image_aborts D.ldpc c.pixels [] depth levels hz).2
      rw [he] at h2; cases h2
    have hw : 0 < c.width := Nat.pos_of_ne_zero fun h => hz (by simp [h])
    have hh : 0 < c.height := Nat.pos_of_ne_zero fun h => hz (by simp [h])
    rcases Nat.lt_or_ge c.width c.height with hp | hp
    · exact (equalizedFeatures_length D c a fs h1).2.2 (Nat.mul_lt_mul_of_pos_left hp hw)
    · obtain ⟨e, he⟩ := extract_tall_aborts D.ldpc c.pixels depth levels hh (show c.height < c.width by omega)
      rw [he] at h2; cases h2

/-! ### Sizes at three levels: C41, C51 -/

theorem supported_small (s : Nat) (h : s * s / 8 < 1024) (hs : SupportedCapacity (s * s / 8)) : s = 16 ∨ s = 32 ∨ s = 64 := by
  have hs91 : s < 91 := by
    by_contra hc
    have := Nat.mul_le_mul (show 91 ≤ s by omega) (show 91 ≤ s by omega)
    omega
  have key : ∀ s < 91, SupportedCapacity (s * s / 8) → s * s / 8 < 1024 → s = 16 ∨ s = 32 ∨ s = 64 := by decide +kernel
  exact key s hs91 hs h

/-- Whether the record fits at three levels, exactly: every multiple of 8 whose domain holds the record and its two headers,
except side 256. -/
theorem record_fits_iff (n a : Nat) (ha1 : 1 ≤ a) (ha : a ≤ 85) (hd : 8 ∣ n) :
    (9 ≤ domainBytes n dwtLevels ∧ encodedLength (domainBytes n dwtLevels) (recordBytes a) ≤ domainBytes n dwtLevels) ↔
      recordBytes a + 4 ≤ (n / 8) * (n / 8) / 8 ∧ n ≠ 256 := by
  obtain ⟨s, rfl⟩ := hd
  have hdb : domainBytes (8 * s) dwtLevels = s * s / 8 := by
    unfold domainBytes dwtLevels
    rw [show (2 : ℕ) ^ 3 = 8 by norm_num, Nat.mul_div_cancel_left _ (by norm_num)]
  rw [hdb, Nat.mul_div_cancel_left _ (by norm_num)]
  have hr1 : 80 ≤ recordBytes a := by unfold recordBytes; omega
  have hr2 : recordBytes a ≤ 111 := by unfold recordBytes; omega
  generalize recordBytes a = r at *
  unfold encodedLength
  split_ifs with hsup
  · by_cases hbig : 1024 ≤ s * s / 8
    · have hdt : dataBytes (s * s / 8) = 512 := by unfold dataBytes; split_ifs <;> omega
      unfold blockBytes
      rw [hdt, show (r + 4 + 512 - 1) / 512 = 1 by omega]
      have hs : s ≠ 32 := by rintro rfl; omega
      omega
    · rcases supported_small s (by omega) hsup with rfl | rfl | rfl
      · norm_num [blockBytes, dataBytes]
        omega
      · norm_num [blockBytes, dataBytes]
        omega
      · norm_num [blockBytes, dataBytes]
        omega
  · have h32 : s ≠ 32 := by rintro rfl; exact hsup (by decide)
    omega

/-- C41: at three levels a square image is accepted exactly if the number of features is 1..=85, every feature can be
quantized, its side is a multiple of 8 other than 256 and its domain of `(n/8)^2` bits holds the record and 4 header bytes. -/
theorem watermark_accepts_iff (D : Deps F) (hk : D.ed.keypairOk (builtinSecret ++ builtinPublic) = true) (c : GrayImage)
    (n a : Nat) (depth step : F) (hn : 0 < n) (hc : c.IsSquare n) :
    (∃ out, watermarkChannel D c depth step a dwtLevels = .ok out) ↔
      (1 ≤ a ∧ a ≤ 85) ∧ (∀ fs, equalizedFeatures D c a = .ok fs → FeaturesInRange fs step) ∧
      8 ∣ n ∧ n ≠ 256 ∧ recordBytes a + 4 ≤ (n / 8) * (n / 8) / 8 := by
  rw [watermark_square_iff D hk c n dwtLevels a depth step hn hc]
  constructor
  · rintro ⟨h1, h2, _, _, h3, h4⟩
    have h8 : 8 ∣ n := h3
    have := (record_fits_iff n a h1.1 h1.2 h8).mp h4
    exact ⟨h1, h2, h8, this.2, this.1⟩
  · rintro ⟨h1, h2, h8, h3, h4⟩
    refine ⟨h1, h2, by decide, by decide, h8, (record_fits_iff n a h1.1 h1.2 h8).mpr ⟨h4, h3⟩⟩

/-- C41: with the 11 features the command line and the web page use, the smallest accepted side is 216, and everything below is
refused; 256 is refused too. -/
theorem smallest_accepted_side (n : Nat) (h8 : 8 ∣ n) :
    (n ≠ 256 ∧ recordBytes 11 + 4 ≤ (n / 8) * (n / 8) / 8) ↔ 216 ≤ n ∧ n ≠ 256 := by
  obtain ⟨s, rfl⟩ := h8
  rw [Nat.mul_div_cancel_left _ (by norm_num)]
  have : recordBytes 11 + 4 ≤ s * s / 8 ↔ 27 ≤ s := by
    have e : recordBytes 11 = 84 := by decide
    rw [e]
    constructor
    · intro h
      by_contra hc
      have := Nat.mul_le_mul (show s ≤ 26 by omega) (show s ≤ 26 by omega)
      omega
    · intro h
      have := Nat.mul_le_mul h h
      omega
  rw [this]
  omega

end

theorem square_residues_aux : ∀ i < 128, ∀ j < 64, ((64 * i + j) * (64 * i + j) % 8192 < 8 ↔
    (64 * i + j) % 128 = 0 ∨ (64 * i + j) % 4096 = 1 ∨ (64 * i + j) % 4096 = 4095 ∨ (64 * i + j) % 2048 = 2 ∨
    (64 * i + j) % 2048 = 2046) := by decide +kernel

/-- Squares modulo 8192 below 8, over the full residue system. -/
theorem square_residues (s : Nat) (h : s < 8192) : (s * s % 8192 < 8 ↔ s % 128 = 0 ∨ s % 4096 = 1 ∨ s % 4096 = 4095 ∨
    s % 2048 = 2 ∨ s % 2048 = 2046) := by
  have := square_residues_aux (s / 64) (by omega) (s % 64) (by omega)
  rwa [Nat.div_add_mod] at this

/-- Domains of at least 1024 bytes that are a multiple of the code block. -/
theorem aligned_iff (s : Nat) : 1024 ∣ s * s / 8 ↔
    s % 128 = 0 ∨ s % 4096 = 1 ∨ s % 4096 = 4095 ∨ s % 2048 = 2 ∨ s % 2048 = 2046 := by
  have h1 : 1024 ∣ s * s / 8 ↔ s * s % 8192 < 8 := by omega
  have h2 : s * s % 8192 = (s % 8192) * (s % 8192) % 8192 := Nat.mul_mod s s 8192
  have h3 := square_residues (s % 8192) (Nat.mod_lt _ (by norm_num))
  rw [h1, h2, h3]
  rw [Nat.mod_mod_of_dvd s (show 128 ∣ 8192 by norm_num), Nat.mod_mod_of_dvd s (show 4096 ∣ 8192 by norm_num),
    Nat.mod_mod_of_dvd s (show 2048 ∣ 8192 by norm_num)]

/-- The sides of square images whose watermark can be read back: 512, the multiples of 1024, and the sides above 16000 that
leave remainder 8 or 32760 modulo 32768 or 16 or 16368 modulo 16384. -/
def ReadableSide (n : Nat) : Prop :=
  8 ∣ n ∧ (n = 512 ∨ (1024 ≤ n ∧ (n % 1024 = 0 ∨ n % 32768 = 8 ∨ n % 32768 = 32760 ∨ n % 16384 = 16 ∨ n % 16384 = 16368)))

theorem readableSide_iff (n : Nat) (h8 : 8 ∣ n) (hcap : 84 ≤ (n / 8) * (n / 8) / 8) (h256 : n ≠ 256) :
    ReadableSide n ↔ SupportedCapacity (domainBytes n dwtLevels) ∧
      blockBytes (domainBytes n dwtLevels) ∣ domainBytes n dwtLevels := by
  obtain ⟨s, rfl⟩ := h8
  have hdb : domainBytes (8 * s) dwtLevels = s * s / 8 := by
    unfold domainBytes dwtLevels
    rw [show (2 : ℕ) ^ 3 = 8 by norm_num, Nat.mul_div_cancel_left _ (by norm_num)]
  rw [Nat.mul_div_cancel_left _ (by norm_num)] at hcap
  rw [hdb]
  unfold ReadableSide
  by_cases hbig : 1024 ≤ s * s / 8
  · have hs : 91 ≤ s := by
      by_contra hc
      have := Nat.mul_le_mul (show s ≤ 90 by omega) (show s ≤ 90 by omega)
      omega
    have hsup : SupportedCapacity (s * s / 8) := by unfold SupportedCapacity; omega
    have hdt : dataBytes (s * s / 8) = 512 := by unfold dataBytes; split_ifs <;> omega
    have hbb : blockBytes (s * s / 8) = 1024 := by unfold blockBytes; rw [hdt]
    rw [hbb, aligned_iff]
    constructor
    · rintro ⟨_, h⟩
      refine ⟨hsup, ?_⟩
      omega
    · rintro ⟨_, h⟩
      refine ⟨⟨s, rfl⟩, ?_⟩
      omega
  · have hs : s < 91 := by
      by_contra hc
      have := Nat.mul_le_mul (show 91 ≤ s by omega) (show 91 ≤ s by omega)
      omega
    constructor
    · rintro ⟨_, h⟩
      have : s = 64 := by omega
      subst this
      decide
    · rintro ⟨h, _⟩
      rcases supported_small s (by omega) h with rfl | rfl | rfl
      · omega
      · omega
      · exact ⟨⟨64, rfl⟩, Or.inl rfl⟩

section
variable {F : Type} [FloatOps F] [LawfulFloat F]

/-- C51: of the square images that are accepted at three levels, only those of a readable side can be authenticated: on every
other side marking succeeds, and authentication of the marked image, and of every image within the noise bound, aborts. -/
theorem marked_unreadable_side (D : Deps F) (hk : D.ed.KeyPair builtinSecret builtinPublic) (c : GrayImage) (n a : Nat)
    (depth step : F) (t : ℝ) (hc : c.IsSquare n) (hn : 0 < n) (hs : SignalOK n dwtLevels c.pixels depth t) (h8 : 8 ∣ n)
    (h256 : n ≠ 256) (ha1 : 1 ≤ a) (ha : a ≤ 85) (hcap : recordBytes a + 4 ≤ (n / 8) * (n / 8) / 8)
    (hmin : ∀ fs, equalizedFeatures D c a = .ok fs → FeaturesInRange fs step) (hun : ¬ ReadableSide n) :
    ∃ out, watermarkChannel D c depth step a dwtLevels = .ok out ∧ out.IsSquare n ∧
      ∀ noisy : GrayImage, noisy.IsSquare n → WithinNoise n t out.pixels noisy.pixels →
        ∀ (step' : F) (a' : Nat), ∃ e, authenticateChannel D noisy depth step' a' dwtLevels = .error e := by
  have hr1 : 80 ≤ recordBytes a := by unfold recordBytes; omega
  have hr2 : recordBytes a ≤ 111 := by unfold recordBytes; omega
  obtain ⟨out, hout⟩ := (watermark_accepts_iff D hk.keypair c n a depth step hn hc).mpr ⟨⟨ha1, ha⟩, hmin, h8, h256, hcap⟩
  obtain ⟨_, _, _, _, _, fs, q, p, record, m, hf, hq, hser, hlen, he, hraw⟩ :=
    watermarkChannel_ok_only D c out depth step a dwtLevels hout
  have hsq : c.pixels.IsSquare n := ⟨hc.1, hc.2.1⟩
  obtain ⟨hm1, hm2⟩ := embed_shape D.ldpc c.pixels m record depth dwtLevels he
  have hmsq : m.IsSquare n := ⟨by rw [hm1]; exact hc.1, by rw [hm2]; exact hc.2.1⟩
  obtain ⟨r1, r2, r3⟩ := fromRaw_toList m n hmsq
  have hout' : out = ⟨n, n, m.toList⟩ := by
    rw [hc.1, hc.2.1, r1] at hraw
    exact (Except.ok.inj hraw).symm
  subst hout'
  refine ⟨_, hout, r2, ?_⟩
  intro noisy hns hnoise step' a'
  have hx : ∃ e, extract D.ldpc noisy.pixels depth dwtLevels = .error e := by
    have hmis : ¬ (SupportedCapacity (domainBytes n dwtLevels) ∧
        blockBytes (domainBytes n dwtLevels) ∣ domainBytes n dwtLevels) := by
      rw [← readableSide_iff n h8 (by omega) h256]; exact hun
    by_cases hsup : SupportedCapacity (domainBytes n dwtLevels)
    · exact extract_misaligned_aborts D.ldpc n dwtLevels noisy.pixels depth ⟨hns.1, hns.2.1⟩ (by decide) (by decide) h8 hsup
        (fun h => hmis ⟨hsup, h⟩)
    · have hdb : domainBytes n dwtLevels = (n / 8) * (n / 8) / 8 := rfl
      have hsmall : domainBytes n dwtLevels < 1024 := by
        by_contra hcc; exact hsup (by unfold SupportedCapacity; omega)
      have hg : EmbedGeometry n dwtLevels c.pixels := ⟨hsq, by decide, by decide, h8, by omega⟩
      have hrec := (data_serialize_spec record).1 (by rw [hlen]; omega)
      obtain ⟨m', he', _, h3⟩ := marked_reads_back D.ldpc n dwtLevels c.pixels record _ depth t hg hs hrec
        (by unfold encodedLength; rw [if_neg hsup, hlen]; omega)
      rw [he] at he'
      cases he'
      obtain ⟨rest, hlen2, hx⟩ := h3 noisy.pixels ⟨⟨hns.1, hns.2.1⟩, by
        intro i hi j hj
        have := hnoise.2 i hi j hj
        rwa [r3 i hi j hj] at this⟩
      rw [hx]
      unfold decode encode
      rw [unsupported_spec _ hsup]
      dsimp only [Except.bind]
      cases hdd : dataDeserialize _ with
      | error e => exact ⟨e, rfl⟩
      | ok payload =>
        exfalso
        obtain ⟨x, y, r, e, _, hle, _⟩ := (data_parse_spec _ _).mp hdd
        simp only [u16ToBytes, List.cons_append, List.nil_append, List.cons.injEq] at e
        obtain ⟨rfl, rfl, hr⟩ := e
        have hL := congrArg List.length hr
        simp only [List.length_append, List.length_cons, hlen] at hL
        unfold encode at hlen2
        rw [unsupported_spec _ hsup] at hlen2
        simp only [List.length_append, List.length_cons, List.length_nil, hlen] at hlen2
        simp only [List.length_append, List.length_cons, List.length_nil, UInt8.toNat_ofNat', hlen] at hle
        omega
  obtain ⟨e, he'⟩ := hx
  cases hauth : authenticateChannel D noisy depth step' a' dwtLevels with
  | error e => exact ⟨e, rfl⟩
  | ok b =>
    obtain ⟨_, fs', data, w, q', h1, h2, _⟩ := (authenticate_iff D noisy depth step' a' dwtLevels b).mp hauth
    rw [he'] at h2; cases h2

/-- C51, the other direction: on every readable side marking succeeds, and authentication of the marked image, and of every
image within the noise bound, gives a verdict: it never aborts (as long as it asks for at least as many features). -/
theorem marked_readable_side (D : Deps F) (hL : D.ldpc.DecodesClean) (hk : D.ed.KeyPair builtinSecret builtinPublic)
    (c : GrayImage) (n a : Nat) (depth step : F) (t : ℝ) (hc : c.IsSquare n) (hs : SignalOK n dwtLevels c.pixels depth t)
    (ha1 : 1 ≤ a) (ha : a ≤ 85) (hmin : ∀ fs, equalizedFeatures D c a = .ok fs → FeaturesInRange fs step)
    (hread : ReadableSide n) :
    ∃ out, watermarkChannel D c depth step a dwtLevels = .ok out ∧ out.IsSquare n ∧
      ∀ noisy : GrayImage, noisy.IsSquare n → WithinNoise n t out.pixels noisy.pixels → ∀ a', a ≤ a' →
        (∀ gs, equalizedFeatures D noisy a' = .ok gs → FeaturesInRange gs step) →
          ∃ verdict, authenticateChannel D noisy depth step a' dwtLevels = .ok verdict := by
  have h8 := hread.1
  have hn : 512 ≤ n := by unfold ReadableSide at hread; omega
  have hdiv : 64 ≤ n / 8 := by omega
  have hdb : domainBytes n dwtLevels = (n / 8) * (n / 8) / 8 := rfl
  have hsq := Nat.mul_le_mul hdiv hdiv
  have hr2 : recordBytes a ≤ 111 := by unfold recordBytes; omega
  obtain ⟨hsup, hal⟩ := (readableSide_iff n h8 (by omega) (by omega)).mp hread
  have hg : EmbedGeometry n dwtLevels c.pixels := ⟨⟨hc.1, hc.2.1⟩, by decide, by decide, h8, by omega⟩
  obtain ⟨fs, hf, hfl⟩ := equalizedFeatures_square D c n a hc ha1
  have hmin' : ∀ f ∈ fs, quantizeOne step f ≠ i64Min := by
    intro f hm e
    apply (featuresInRange_iff _ _).1 (hmin fs hf)
    unfold quantize; rw [← e]; exact List.mem_map_of_mem hm
  have hq := threeBitQuantization_ok fs step hmin'
  obtain ⟨_, hpl⟩ := threeBitQuantization_lengths fs step _ _ hq
  obtain ⟨out, hout, hosq, hv⟩ := marked_channel_verdict D hL hk c n dwtLevels a depth step t hc hg hs hsup hal (by omega) ha fs hf
    _ _ hq
  refine ⟨out, hout, hosq, ?_⟩
  intro noisy hns hnoise a' haa' hmg
  obtain ⟨gs, hgs, hgl⟩ := equalizedFeatures_square D noisy n a' hns (by omega)
  obtain ⟨q', hq'⟩ := (dequantization_succeeds_iff gs (fs.flatMap (bits3 step)) step (hmg gs hgs)).1.mpr
    ⟨by rw [hpl]; exact ⟨_, rfl⟩, by rw [hpl]; omega⟩
  exact ⟨_, hv noisy hns hnoise a' gs q' hgs hq'⟩

end
end Sia
