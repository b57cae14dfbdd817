import Verif.Props.PipelineProps
import Verif.Lemmas.RadialBound

/-! C49: how large features can be and how fast they can change; C38 restated in terms of pixels. -/
namespace Sia
open Finset

/-- Mean pixel value of an `N x N` image. -/
noncomputable def meanPixel (N : Nat) (image : Mat UInt8) : ℝ :=
  (∑ i ∈ range N, ∑ j ∈ range N, ((image.get i j).toNat : ℝ)) / (N * N)

/-- Mean absolute pixel difference of two `N x N` images. -/
noncomputable def meanDifference (N : Nat) (image image' : Mat UInt8) : ℝ :=
  (∑ i ∈ range N, ∑ j ∈ range N, |((image.get i j).toNat : ℝ) - ((image'.get i j).toNat : ℝ)|) / (N * N)

theorem pixelPoint_norm_le (N i j : Nat) (hN : 2 ≤ N) (hi : i < N) (hj : j < N) : ‖pixelPoint N i j‖ ≤ 1 := by
  have h := toPolar_unit_disc N (i + 1) (j + 1) hN (by omega) (by omega) (by omega) (by omega)
  rw [toPolar_eq N i j hN] at h
  exact h.2.1

theorem zernikeV_norm_le (n m : Nat) (z : ℂ) (hm : m ≤ n) (hp : n % 2 = m % 2) (hz : ‖z‖ ≤ 1) : ‖zernikeV n m z‖ ≤ 1 := by
  unfold zernikeV
  rw [norm_mul, Complex.norm_real, Real.norm_eq_abs]
  have h1 := zernikeRadial_bound n m hm hp ‖z‖ (norm_nonneg z) hz
  have h2 : ‖Complex.exp (m * Complex.arg z * Complex.I)‖ = 1 := by
    have := Complex.norm_exp_ofReal_mul_I ((m : ℝ) * Complex.arg z)
    push_cast at this
    exact this
  rw [h2, mul_one]
  exact h1

theorem specMoment_norm_le (N : Nat) (pixel : Nat → Nat → ℝ) (n m : Nat) (hN : 2 ≤ N) (hm : m ≤ n) (hp : n % 2 = m % 2) :
    ‖specMoment N pixel n m‖ ≤ ((n : ℝ) + 1) / Real.pi * ((∑ i ∈ range N, ∑ j ∈ range N, |pixel i j|) / (N * N)) := by
  unfold specMoment
  rw [norm_div, norm_mul, norm_div]
  have e1 : ‖(n : ℂ) + 1‖ = (n : ℝ) + 1 := by
    have : ((n : ℂ) + 1) = ((n + 1 : ℕ) : ℂ) := by push_cast; rfl
    rw [this, Complex.norm_natCast]; push_cast; rfl
  have e2 : ‖(Real.pi : ℂ)‖ = Real.pi := by rw [Complex.norm_real, Real.norm_eq_abs, abs_of_pos Real.pi_pos]
  have e3 : ‖(N : ℂ) * N‖ = (N : ℝ) * N := by rw [norm_mul, Complex.norm_natCast]
  rw [e1, e2, e3, mul_div_assoc]
  apply mul_le_mul_of_nonneg_left _ (div_nonneg (by positivity) Real.pi_pos.le)
  apply div_le_div_of_nonneg_right _ (by positivity)
  refine (norm_sum_le _ _).trans (sum_le_sum fun i hi => (norm_sum_le _ _).trans (sum_le_sum fun j hj => ?_))
  rw [norm_mul, RCLike.norm_conj, Complex.norm_real, Real.norm_eq_abs]
  have := zernikeV_norm_le n m (pixelPoint N i j) hm hp
    (pixelPoint_norm_le N i j hN (mem_range.mp hi) (mem_range.mp hj))
  calc |pixel i j| * ‖zernikeV n m (pixelPoint N i j)‖ ≤ |pixel i j| * 1 := mul_le_mul_of_nonneg_left this (abs_nonneg _)
    _ = |pixel i j| := mul_one _

theorem specMoment_sub (N : Nat) (pixel pixel' : Nat → Nat → ℝ) (n m : Nat) :
    specMoment N pixel n m - specMoment N pixel' n m = specMoment N (fun i j => pixel i j - pixel' i j) n m := by
  unfold specMoment
  rw [← sub_div, ← mul_sub, ← sum_sub_distrib]
  congr 2
  apply sum_congr rfl
  intro i _
  rw [← sum_sub_distrib]
  apply sum_congr rfl
  intro j _
  push_cast
  ring

/-- C49: every feature is at least 0 and at most `2a/π` times the mean pixel value. -/
theorem features_bounded (N : Nat) (image : Mat UInt8) (a : Nat) (ha : 1 ≤ a) (hN : 2 ≤ N) (hsq : image.IsSquare N)
    (fs : List ℝ) (h : calculateFeatures image .MomentsZernike a = .ok fs) :
    ∀ f ∈ fs, 0 ≤ f ∧ f ≤ 2 * a / Real.pi * meanPixel N image := by
  rw [features_square N image a ha hN hsq] at h
  cases h
  intro f hf
  obtain ⟨k, hk, rfl⟩ := List.mem_map.mp hf
  have hk' := List.mem_range.mp hk
  refine ⟨norm_nonneg _, ?_⟩
  refine (specMoment_norm_le N _ _ _ hN (by omega) (by omega)).trans (le_of_eq ?_)
  have e : (((2 * a - 1 : ℕ) : ℝ) + 1) = 2 * a := by
    rw [Nat.cast_sub (by omega)]; push_cast; ring
  rw [e]
  unfold meanPixel pixelReal
  simp only [Nat.abs_cast]

/-- C49: two images of equal size have features that differ by at most `2a/π` times their mean absolute pixel difference. -/
theorem features_lipschitz (N : Nat) (image image' : Mat UInt8) (a : Nat) (ha : 1 ≤ a) (hN : 2 ≤ N) (hsq : image.IsSquare N)
    (hsq' : image'.IsSquare N) (fs gs : List ℝ) (h : calculateFeatures image .MomentsZernike a = .ok fs)
    (h' : calculateFeatures image' .MomentsZernike a = .ok gs) :
    List.Forall₂ (fun f g => |g - f| ≤ 2 * a / Real.pi * meanDifference N image image') fs gs := by
  rw [features_square N image a ha hN hsq] at h
  rw [features_square N image' a ha hN hsq'] at h'
  cases h
  cases h'
  rw [List.forall₂_map_left_iff, List.forall₂_map_right_iff, List.forall₂_same]
  intro k hk
  have hk' := List.mem_range.mp hk
  rw [abs_sub_comm]
  refine (abs_norm_sub_norm_le _ _).trans ?_
  rw [specMoment_sub]
  refine (specMoment_norm_le N _ _ _ hN (by omega) (by omega)).trans (le_of_eq ?_)
  have e : (((2 * a - 1 : ℕ) : ℝ) + 1) = 2 * a := by
    rw [Nat.cast_sub (by omega)]; push_cast; ring
  rw [e]
  rfl

/-- C49: no feature of an 8-bit image exceeds `510 a / π`. -/
theorem features_bounded_255 (N : Nat) (image : Mat UInt8) (a : Nat) (ha : 1 ≤ a) (hN : 2 ≤ N) (hsq : image.IsSquare N)
    (fs : List ℝ) (h : calculateFeatures image .MomentsZernike a = .ok fs) : ∀ f ∈ fs, |f| ≤ 510 * a / Real.pi := by
  intro f hf
  obtain ⟨h0, h1⟩ := features_bounded N image a ha hN hsq fs h f hf
  rw [abs_of_nonneg h0]
  have hm : meanPixel N image ≤ 255 := by
    unfold meanPixel
    have hNN : (0 : ℝ) < N * N := by
      have : (0 : ℝ) < N := by exact_mod_cast (by omega : 0 < N)
      positivity
    rw [div_le_iff₀ hNN]
    calc (∑ i ∈ range N, ∑ j ∈ range N, ((image.get i j).toNat : ℝ)) ≤ ∑ i ∈ range N, ∑ j ∈ range N, (255 : ℝ) := by
          refine sum_le_sum fun i _ => sum_le_sum fun j _ => ?_
          have := (image.get i j).toNat_lt
          exact_mod_cast (by omega : (image.get i j).toNat ≤ 255)
      _ = 255 * (N * N) := by simp; ring
  calc f ≤ 2 * a / Real.pi * meanPixel N image := h1
    _ ≤ 2 * a / Real.pi * 255 := mul_le_mul_of_nonneg_left hm (div_nonneg (by positivity) Real.pi_pos.le)
    _ = 510 * a / Real.pi := by ring

/-- The equalized version of a channel, as the pixel matrix the features are computed from. -/
def equalizedPixels {F : Type} (D : Deps F) (c : GrayImage) : Mat UInt8 :=
  ⟨c.width, c.height, fun i j => (D.equalize c).getD (i * c.height + j) 0⟩

theorem equalizedFeatures_exact (D : Deps ℝ) (hD : D.Exact) (c : GrayImage) (n a : Nat) (hn : 2 ≤ n) (ha : 1 ≤ a)
    (hc : c.IsSquare n) : equalizedFeatures D c a = calculateFeatures (equalizedPixels D c) .MomentsZernike a := by
  obtain ⟨c1, c2, c3⟩ := hc
  unfold equalizedFeatures fromShapeVec
  rw [D.equalize_length, if_pos (by rw [c1, c2, c3])]
  simp only [bind, Except.bind]
  exact channelFeatures_exact D hD _ a ha (by show 2 ≤ c.width; omega) (by show c.height ≤ c.width; omega)

/-- C38 in terms of pixels only, in exact arithmetic: a marked channel authenticates, also after every noise of at most `t` per
pixel, as long as histogram equalisation moves the pixels by at most `π·step/(2a)` on average. -/
theorem marked_channel_authenticates_pixels (D : Deps ℝ) (hD : D.Exact) (hL : D.ldpc.DecodesClean)
    (hk : D.ed.KeyPair builtinSecret builtinPublic)
    (c : GrayImage) (n levels a : Nat) (depth step t : ℝ) (hc : c.IsSquare n)
    (hg : EmbedGeometry n levels c.pixels) (ht : 0 ≤ t) (hd : 2 ^ (levels + 1) * (2 * t + 1) < depth)
    (hpix : ∀ i < n, ∀ j < n, 3 / 4 * depth / 2 ^ levels ≤ ((c.pixels.get i j).toNat : ℝ) ∧
      ((c.pixels.get i j).toNat : ℝ) ≤ 255 - 3 / 4 * depth / 2 ^ levels)
    (hsup : SupportedCapacity (domainBytes n levels)) (hal : blockBytes (domainBytes n levels) ∣ domainBytes n levels)
    (hfit : recordBytes a + 4 ≤ domainBytes n levels / 2) (ha1 : 1 ≤ a) (ha : a ≤ 85) (hstep : 1 / 2 ^ 40 ≤ step) :
    ∃ out, watermarkChannel D c depth step a levels = .ok out ∧ out.IsSquare n ∧
      ∀ noisy : GrayImage, noisy.IsSquare n → WithinNoise n t out.pixels noisy.pixels →
        meanDifference n (equalizedPixels D c) (equalizedPixels D noisy) ≤ Real.pi * step / (2 * a) →
          authenticateChannel D noisy depth step a levels = .ok true := by
  have hn : 2 ≤ n := by
    by_contra hlt
    have hdb : domainBytes n levels ≤ 0 := by
      unfold domainBytes
      have h1 : n / 2 ^ levels ≤ 1 := (Nat.div_le_self _ _).trans (by omega)
      have := Nat.mul_le_mul h1 h1
      omega
    unfold recordBytes at hfit
    omega
  have hs0 : 0 < step := lt_of_lt_of_le (by positivity) hstep
  have hsq : (equalizedPixels D c).IsSquare n := ⟨hc.1, hc.2.1⟩
  have e := equalizedFeatures_exact D hD c n a hn ha1 hc
  obtain ⟨fs, hfs, _⟩ := features_count (equalizedPixels D c) a ha1 (by rw [hsq.1]; exact hn) (by rw [hsq.1, hsq.2])
  have hbd := features_bounded_255 n _ a ha1 hn hsq fs hfs
  have hbig : ∀ f ∈ fs, |f| ≤ 2 ^ 61 * step := by
    intro f hf
    refine (hbd f hf).trans ?_
    have ha' : (a : ℝ) ≤ 85 := by exact_mod_cast ha
    have hpi := Real.two_le_pi
    calc 510 * (a : ℝ) / Real.pi ≤ 510 * 85 / 2 := by
          apply div_le_div₀ (by norm_num) (by linarith) (by norm_num) hpi
      _ ≤ 2 ^ 61 * (1 / 2 ^ 40) := by norm_num
      _ ≤ 2 ^ 61 * step := mul_le_mul_of_nonneg_left hstep (by norm_num)
  obtain ⟨out, h1, h2, h3⟩ := marked_channel_authenticates D hL hk c n levels a depth step t hc hg ht hd hpix hsup hal hfit ha
    hs0 fs (e.trans hfs) hbig
  refine ⟨out, h1, h2, fun noisy hnsq hnoise hmean => ?_⟩
  have hsq' : (equalizedPixels D noisy).IsSquare n := ⟨hnsq.1, hnsq.2.1⟩
  have e' := equalizedFeatures_exact D hD noisy n a hn ha1 hnsq
  obtain ⟨gs, hgs, _⟩ := features_count (equalizedPixels D noisy) a ha1 (by rw [hsq'.1]; exact hn) (by rw [hsq'.1, hsq'.2])
  refine h3 noisy hnsq hnoise gs (e'.trans hgs) ?_
  refine (features_lipschitz n _ _ a ha1 hn hsq hsq' fs gs hfs hgs).imp fun f g hfg => hfg.trans ?_
  have ha0 : (0 : ℝ) < a := by exact_mod_cast ha1
  calc 2 * (a : ℝ) / Real.pi * meanDifference n (equalizedPixels D c) (equalizedPixels D noisy)
      ≤ 2 * a / Real.pi * (Real.pi * step / (2 * a)) :=
        mul_le_mul_of_nonneg_left hmean (div_nonneg (by positivity) Real.pi_pos.le)
    _ = step := by field_simp

end Sia
